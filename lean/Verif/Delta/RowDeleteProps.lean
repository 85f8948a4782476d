import Verif.Delta.RowDeleteLemmas

namespace Verif.Delta.MetaFilter

open Spec

/-! ### A table for the examples -/

namespace Ex

/-- A table partitioned by an integer `p` and a text `q`. -/
def t : Table := ⟨[("p", .int), ("q", .str)], []⟩

/-- A file with two rows. -/
def f1 : File :=
  ⟨[("p", some "1"), ("q", some "a")],
    some ⟨.int 2, .struct [("x", .int 3)], .struct [("x", .int 8)], .struct [("x", .int 0)]⟩,
    [[("x", .int 3)], [("x", .int 8)]], [[("x", .int 3)], [("x", .int 8)]]⟩

/-- A file of another partition without statistics. -/
def f2 : File := ⟨[("p", some "2"), ("q", none)], none, [[("x", .null)]], [[("x", .null)]]⟩

theorem t_parts {p : String} {ty : Ty} (h : t.parts.lookup p = some ty) :
    (p = "p" ∧ ty = .int) ∨ (p = "q" ∧ ty = .str) := by
  simp only [t, List.lookup_cons] at h
  by_cases h1 : p == "p"
  · rw [h1] at h; exact .inl ⟨eq_of_beq h1, by simpa using h.symm⟩
  · rw [Bool.not_eq_true] at h1
    rw [h1] at h
    by_cases h2 : p == "q"
    · rw [h2] at h; exact .inr ⟨eq_of_beq h2, by simpa using h.symm⟩
    · rw [Bool.not_eq_true] at h2; rw [h2] at h; cases h

theorem readable1 : Readable t f1 := by
  intro p ty h s hs
  rcases t_parts h with ⟨rfl, rfl⟩ | ⟨rfl, rfl⟩
  · have : f1.text "p" = some "1" := by decide +kernel
    rw [this] at hs; cases hs; decide +kernel
  · have : f1.text "q" = some "a" := by decide +kernel
    rw [this] at hs; cases hs; decide +kernel

theorem readable2 : Readable t f2 := by
  intro p ty h s hs
  rcases t_parts h with ⟨rfl, rfl⟩ | ⟨rfl, rfl⟩
  · have : f2.text "p" = some "2" := by decide +kernel
    rw [this] at hs; cases hs; decide +kernel
  · have : f2.text "q" = none := by decide +kernel
    rw [this] at hs; cases hs

theorem at_scalar {env : String → Val} (h : ∀ n fs, env n ≠ .struct fs) {path : List String}
    (hn : (at_ env path).isNull = false) : ∃ n, path = [n] := by
  match path with
  | [] => cases hn
  | [n] => exact ⟨n, rfl⟩
  | n :: m :: ns =>
    have hf : (env n).field m = .null := by
      cases he : env n <;> first | rfl | exact absurd he (h n _)
    have hz : ∀ l : List String, l.foldl Val.field .null = .null := by
      intro l; induction l with
      | nil => rfl
      | cons a as ih => exact ih
    simp only [at_, List.foldl_cons] at hn
    rw [hf, hz] at hn
    cases hn

theorem row1 {r : Row} (hr : r ∈ f1.stored) (n : String) :
    envOf (seen t f1 r) n =
      if n = "p" then .int 1 else if n = "q" then .str "a"
      else if n = "x" then envOf r "x" else .null := by
  have e1 : readPart .int (f1.text "p") = .int 1 := by
    have : f1.text "p" = some "1" := by decide +kernel
    rw [this]; simp only [readPart]
    rw [if_neg (by decide +kernel)]; simp only [castVal]; rw [show parseInt "1" = some 1 by decide +kernel]; rfl
  have e2 : readPart .str (f1.text "q") = .str "a" := by
    have : f1.text "q" = some "a" := by decide +kernel
    rw [this]; simp only [readPart]
    rw [if_neg (by decide +kernel)]; rfl
  by_cases h1 : n = "p"
  · subst h1
    rw [env_part (ty := .int) (by decide +kernel), e1]; rfl
  by_cases h2 : n = "q"
  · subst h2
    rw [env_part (ty := .str) (by decide +kernel), e2]; rfl
  rw [if_neg h1, if_neg h2, env_stored (by simp [t, h1, h2])]
  simp only [f1, List.mem_cons, List.not_mem_nil, or_false] at hr
  by_cases h3 : n = "x"
  · rw [if_pos h3, h3]
  · rw [if_neg h3]
    have h3 : (n == "x") = false := by simpa using h3
    rcases hr with rfl | rfl <;> simp [envOf, List.lookup_cons, h3]

theorem row1_scalar {r : Row} (hr : r ∈ f1.stored) (n : String) (fs : List (String × Val)) :
    envOf (seen t f1 r) n ≠ .struct fs := by
  rw [row1 hr]
  simp only [f1, List.mem_cons, List.not_mem_nil, or_false] at hr
  split
  · simp
  split
  · simp
  split
  · rcases hr with rfl | rfl <;> simp [envOf]
  · simp

theorem inside_x {v : Val} {path : List String} (h : path ≠ ["x"]) (hp : path ≠ [])
    (hv : ∀ fs, v ≠ .struct fs) : (inside (.struct [("x", v)]) path).isNull = true := by
  match path with
  | [] => exact absurd rfl hp
  | n :: ns =>
    have hz : ∀ l : List String, l.foldl Val.field .null = .null := by
      intro l; induction l with
      | nil => rfl
      | cons a as ih => exact ih
    simp only [inside, List.foldl_cons]
    by_cases hn : n = "x"
    · subst hn
      match ns with
      | [] => exact absurd rfl h
      | m :: ms =>
        have : (Val.struct [("x", v)]).field "x" = v := rfl
        rw [this, List.foldl_cons]
        have hf : v.field m = .null := by
          cases v <;> first | rfl | exact absurd rfl (hv _)
        rw [hf, hz]; rfl
    · have : (Val.struct [("x", v)]).field n = .null := by
        have hn : (n == "x") = false := by simpa using hn
        simp [Val.field, List.lookup_cons, hn]
      rw [this, hz]; rfl

theorem describes1 : Describes t f1 := by
  have hphys : ∀ path, physicalOf t path = path := fun _ => rfl
  refine ⟨fun r h => h, ?_, ?_, ?_, ?_⟩
  · intro s hs path hp r hr hn
    simp only [f1, Option.some.injEq] at hs
    subst hs
    rw [hphys]
    by_cases hx : path = ["x"]
    · subst hx
      right
      simp only [at_, List.foldl_nil]
      rw [row1 hr]
      simp only [f1, List.mem_cons, List.not_mem_nil, or_false] at hr
      rcases hr with rfl | rfl <;> decide +kernel
    · exact .inl (inside_x hx hp.1 (by simp))
  · intro s hs path hp r hr hn
    simp only [f1, Option.some.injEq] at hs
    subst hs
    rw [hphys]
    by_cases hx : path = ["x"]
    · subst hx
      right
      simp only [at_, List.foldl_nil]
      rw [row1 hr]
      simp only [f1, List.mem_cons, List.not_mem_nil, or_false] at hr
      rcases hr with rfl | rfl <;> decide +kernel
    · exact .inl (inside_x hx hp.1 (by simp))
  · intro s hs
    simp only [f1, Option.some.injEq] at hs
    subst hs
    exact .inr rfl
  · intro s hs path hp
    simp only [f1, Option.some.injEq] at hs
    subst hs
    rw [hphys]
    by_cases hx : path = ["x"]
    · subst hx
      right
      have : f1.stored.countP (fun r => (at_ (envOf (seen t f1 r)) ["x"]).isNull) = 0 := by
        rw [List.countP_eq_zero]
        intro r hr
        simp only [at_, List.foldl_nil]
        rw [row1 hr]
        simp only [f1, List.mem_cons, List.not_mem_nil, or_false] at hr
        rcases hr with rfl | rfl <;> decide +kernel
      rw [this]; rfl
    · exact .inl (inside_x hx hp.1 (by simp))

theorem describes2 : Describes t f2 :=
  ⟨fun _ h => h, fun _ h => (by cases h), fun _ h => (by cases h), fun _ h => (by cases h),
    fun _ h => (by cases h)⟩

theorem reserved : "stats_parsed" ∉ t.parts.map Prod.fst := by decide +kernel

/-- `p = 1 AND x > 5`. -/
def c : Expr := .and (.cmp .eq (.col "p") (.lit (.int 1))) (.cmp .gt (.col "x") (.lit (.int 5)))

theorem sound : Sound t c [f1, f2] := by
  refine ⟨reserved, by simp [c, CastsOk, CastOk], ?_⟩
  intro f hf
  simp only [List.mem_cons, List.not_mem_nil, or_false] at hf
  refine ⟨?_, by simp [c, NullChecksOk], ?_⟩
  · rcases hf with rfl | rfl
    · exact describes1
    · exact describes2
  · intro r hr
    refine ⟨?_, ?_⟩ <;> intro s <;> simp only [eval]
    · rw [env_part (ty := .int) (by decide +kernel)]
      rcases readPart_cases .int (f.text "p") with h | h
      · rw [h]; simp
      · intro h'; rw [h'] at h; exact h
    · rw [env_stored (by decide +kernel)]
      rcases hf with rfl | rfl
      · simp only [f1, List.mem_cons, List.not_mem_nil, or_false] at hr
        rcases hr with rfl | rfl <;> simp [envOf]
      · simp only [f2, List.mem_cons, List.not_mem_nil, or_false] at hr
        subst hr; simp [envOf]

/-- `p = 1`. -/
def c1 : Expr := .cmp .eq (.col "p") (.lit (.int 1))

theorem simple1 : Simple t c1 := .left (ty := .int) ⟨"p", rfl, by decide +kernel⟩ ⟨.int 1, rfl, .inr trivial⟩

theorem sound1 : Sound t c1 [f1, f2] := by
  refine ⟨reserved, by simp [c1, CastsOk, CastOk], ?_⟩
  intro f hf
  have h := sound.files f hf
  exact ⟨h.1, trivial, fun r hr => (h.2.2 r hr).1⟩

theorem readable : ∀ f ∈ [f1, f2], Readable t f := by
  intro f hf
  simp only [List.mem_cons, List.not_mem_nil, or_false] at hf
  rcases hf with rfl | rfl
  · exact readable1
  · exact readable2

/-- A table partitioned by a boolean `b` and two integers. -/
def tb : Table := ⟨[("b", .bool), ("m", .int), ("n", .int)], []⟩

/-- A file of that table. -/
def fb : File := ⟨[("b", some "false"), ("m", some "1"), ("n", some "2")], none, [[]], [[]]⟩

/-- `q LIKE 'a%'`, an expression that the rewriter does not know. -/
def like : Expr :=
  .other ["q"] (fun vs => match vs with
    | [.str s] => .bool (s.toList.head? == some 'a')
    | _ => .null)

/-- A file whose `q` does not start with an a. -/
def f3 : File := ⟨[("p", some "3"), ("q", some "b")], none, [[("x", .int 1)]], [[("x", .int 1)]]⟩

/-- `p = 1 AND x = 8`. -/
def cm : Expr := .and (.cmp .eq (.col "p") (.lit (.int 1))) (.cmp .eq (.col "x") (.lit (.int 8)))

/-- `p IS NULL OR x = 8`. -/
def cn : Expr := .or (.isNull (.col "p")) (.cmp .eq (.col "x") (.lit (.int 8)))

/-- `x > 5`. -/
def cx : Expr := .cmp .gt (.col "x") (.lit (.int 5))

theorem soundx : Sound t cx [f1, f2] := by
  refine ⟨reserved, by simp [cx, CastsOk, CastOk], ?_⟩
  intro f hf
  have h := sound.files f hf
  exact ⟨h.1, trivial, fun r hr => (h.2.2 r hr).2⟩

end Ex

/-! ### C117 -/

/-- A file with a row for which the predicate is true is chosen, if its statistics describe its
rows; missing statistics describe any rows. Partial: where the predicate has a null check, the
partition texts must be readable as values, which excludes the empty text and the Hive marker. -/
theorem C117_file_with_match_is_chosen_partial {t : Table}
    (hs : "stats_parsed" ∉ t.parts.map Prod.fst) {f : File} (D : Describes t f) (e : Expr)
    (hR : NullChecksOk t f e) (hc : CastsOk t e) {r : Row} (hr : r ∈ f.rows)
    (hraw : NoRaw (envOf (seen t f r)) e)
    (h : (eval (envOf (seen t f r)) e).toB = some true) : chosen t e f = true := by
  have := rewrite_sound hs D (D.live r hr) e hR hc hraw h
  simpa [chosen, True_] using this

example : chosen Ex.t Ex.c Ex.f1 = true :=
  C117_file_with_match_is_chosen_partial Ex.reserved Ex.describes1 Ex.c
    (Ex.sound.files _ (by simp)).2.1 Ex.sound.casts (r := [("x", .int 8)])
    (by simp [Ex.f1]) ((Ex.sound.files _ List.mem_cons_self).2.2 _ (by simp [Ex.f1]))
    (by decide +kernel)

/-- The filter is not trivial: it leaves a file out. -/
example : chosen Ex.t Ex.c Ex.f2 = false ∧
    chosen Ex.t (.cmp .gt (.col "x") (.lit (.int 8))) Ex.f1 = false := by decide +kernel

/-- A file without any statistics is chosen by every predicate without partition columns that is
true of one of its rows, or of any row that could be stored in it. -/
theorem C117_missing_statistics_never_remove {t : Table}
    (hs : "stats_parsed" ∉ t.parts.map Prod.fst) {f : File} (hf : f.stats = none) (e : Expr)
    (hp : ∀ n ∈ e.cols, n ∉ t.parts.map Prod.fst) (hc : CastsOk t e) (hn : NullChecksOk t f e)
    (r : Row) (hraw : NoRaw (envOf r) e) (h : (eval (envOf r) e).toB = some true) :
    chosen t e f = true := by
  have D : Describes t { f with stored := [r], rows := [r] } :=
    ⟨fun _ h => h, fun s h => (by rw [hf] at h; cases h), fun s h => (by rw [hf] at h; cases h),
      fun s h => (by rw [hf] at h; cases h), fun s h => (by rw [hf] at h; cases h)⟩
  have hev : ∀ n ∈ e.cols, envOf (seen t { f with stored := [r], rows := [r] } r) n = envOf r n :=
    fun n h => env_stored (hp n h)
  have hraw' : NoRaw (envOf (seen t { f with stored := [r], rows := [r] } r)) e := by
    clear h hc hn D
    induction e with
    | cmp op a b =>
      intro s
      rw [eval_congr a (fun n h => hev n (by simp [Expr.cols, h]))]
      exact hraw s
    | and a b iha ihb =>
      exact ⟨iha (fun n h => hp n (by simp [Expr.cols, h])) hraw.1
          (fun n h => hev n (by simp [Expr.cols, h])),
        ihb (fun n h => hp n (by simp [Expr.cols, h])) hraw.2
          (fun n h => hev n (by simp [Expr.cols, h]))⟩
    | or a b iha ihb =>
      exact ⟨iha (fun n h => hp n (by simp [Expr.cols, h])) hraw.1
          (fun n h => hev n (by simp [Expr.cols, h])),
        ihb (fun n h => hp n (by simp [Expr.cols, h])) hraw.2
          (fun n h => hev n (by simp [Expr.cols, h]))⟩
    | not a ih => exact ih hp hraw hev
    | alias a ih => exact ih hp hraw hev
    | _ => trivial
  have hn' : NullChecksOk t { f with stored := [r], rows := [r] } e := by
    clear h hc hraw hraw' hev hp D
    induction e with
    | and a b iha ihb => exact ⟨iha hn.1, ihb hn.2⟩
    | or a b iha ihb => exact ⟨iha hn.1, ihb hn.2⟩
    | not a ih => exact ih hn
    | alias a ih => exact ih hn
    | isNull a => exact hn
    | isNotNull a => exact hn
    | _ => trivial
  exact C117_file_with_match_is_chosen_partial (f := { f with stored := [r], rows := [r] }) hs D e
    hn' hc (r := r) (by simp) hraw' (by rw [eval_congr e hev]; exact h)

example : chosen Ex.t Ex.cx Ex.f2 = true :=
  C117_missing_statistics_never_remove Ex.reserved rfl Ex.cx (by decide +kernel)
    Ex.soundx.casts trivial [("x", .int 6)] (by simp [NoRaw, Ex.cx, eval, envOf])
    (by decide +kernel)

/-- Not so for a text partition column whose text is empty: the column is NULL on the row, and
`q IS NULL` leaves the file out. -/
theorem C117_null_check_misses_a_file : ∃ (t : Table) (f : File) (e : Expr) (r : Row),
    "stats_parsed" ∉ t.parts.map Prod.fst ∧ f.stats = none ∧ CastsOk t e ∧ r ∈ f.rows ∧
    (eval (envOf (seen t f r)) e).toB = some true ∧ chosen t e f = false :=
  ⟨Ex.t, ⟨[("p", some "1"), ("q", some "")], none, [[]], [[]]⟩, .isNull (.col "q"), [],
    by decide +kernel, rfl, by simp [CastsOk, CastOk], by simp, by decide +kernel,
    by decide +kernel⟩

/-! ### C118 -/

/-- A scan returns exactly the rows for which every filter is true. Partial: the filters that are
reported as exact are of the covered shapes and the partition texts can be read. -/
theorem C118_scan_is_filtered_partial {t : Table} {filters : List Expr} {fs : List File}
    (hS : ∀ e ∈ filters, Sound t e fs) (hR : ∀ f ∈ fs, Readable t f)
    (hE : ∀ e ∈ filters, reportedExact t e = true → Simple t e) :
    scan t filters fs = (content t fs).filter
      (fun r => filters.all (fun e => (eval (envOf r) e).toB == some true)) := by
  unfold scan conjAll
  cases filters with
  | nil => rfl
  | cons e es =>
    simp only [conj]
    have hch : ∀ f, chosen t (es.foldl .and e) f = true ↔
        chosen t e f = true ∧ ∀ x ∈ es, chosen t x f = true := by
      intro f
      have := rewrite_conj (t := t) (env := metaEnv t f) es e
      simpa [chosen, True_] using this
    have hch' : ∀ f, chosen t (es.foldl .and e) f = true ↔ ∀ x ∈ e :: es, chosen t x f = true := by
      intro f; rw [hch]; simp
    clear hch
    unfold content
    induction fs with
    | nil => rfl
    | cons f fs ih =>
      have hS' : ∀ a ∈ e :: es, Sound t a fs := fun a ha => ⟨(hS a ha).reserved, (hS a ha).casts,
        fun f hf => (hS a ha).files f (List.mem_cons_of_mem _ hf)⟩
      have ih := ih (fun f hf => hR f (List.mem_cons_of_mem _ hf)) hS'
      have hrow : (rowsOf t f).filter (fun r =>
            (e :: es).all (fun e => (eval (envOf r) e).toB == some true)) =
          if chosen t (es.foldl .and e) f = true then
            (rowsOf t f).filter (fun r => ((e :: es).filter (fun e => !reportedExact t e)).all
              (fun e => holds e r))
          else [] := by
        split
        · next hc =>
          have hc := (hch' f).mp hc
          apply List.filter_congr
          intro x hx
          obtain ⟨r, hr, rfl⟩ := List.mem_map.mp hx
          rw [Bool.eq_iff_iff, List.all_eq_true, List.all_eq_true]
          constructor
          · intro h a ha
            exact h a (List.mem_filter.mp ha).1
          · intro h a ha
            cases hx : reportedExact t a with
            | false => exact h a (List.mem_filter.mpr ⟨ha, by simp [hx]⟩)
            | true =>
              exact holds_of_chosen (hR f List.mem_cons_self) (hE a ha hx) (hc a ha) r
        · next hc =>
          rw [List.filter_eq_nil_iff]
          intro x hx h
          obtain ⟨r, hr, rfl⟩ := List.mem_map.mp hx
          rw [List.all_eq_true] at h
          exact hc ((hch' f).mpr (fun a ha =>
            chosen_of_holds (hS a ha) List.mem_cons_self hr (h a ha)))
      rw [List.flatMap_cons, List.filter_append, ← ih, hrow]
      by_cases hc : chosen t (es.foldl .and e) f = true
      · rw [if_pos hc, List.filter_cons_of_pos hc, List.flatMap_cons, List.filter_append]
      · rw [if_neg hc, List.filter_cons_of_neg hc]; rfl

example : scan Ex.t [Ex.c1, Ex.cx] [Ex.f1, Ex.f2] = (content Ex.t [Ex.f1, Ex.f2]).filter
    (fun r => [Ex.c1, Ex.cx].all (fun e => (eval (envOf r) e).toB == some true)) := by
  refine C118_scan_is_filtered_partial ?_ Ex.readable ?_
  · intro e he
    simp only [List.mem_cons, List.not_mem_nil, or_false] at he
    rcases he with rfl | rfl
    · exact Ex.sound1
    · exact Ex.soundx
  · intro e he hx
    simp only [List.mem_cons, List.not_mem_nil, or_false] at he
    rcases he with rfl | rfl
    · exact Ex.simple1
    · exact absurd hx (by decide +kernel)

/-- One row of three comes back. -/
example : (scan Ex.t [Ex.c1, Ex.cx] [Ex.f1, Ex.f2]).length = 1 ∧
    (content Ex.t [Ex.f1, Ex.f2]).length = 3 ∧ reportedExact Ex.t Ex.c1 = true := by
  decide +kernel

/-- A boolean partition column as a filter, its negation, and the equality of two partition
columns are reported as exact and not enforced: the scan returns a row for which they are false. -/
theorem C118_exact_filters_not_enforced : ∃ (t : Table) (f : File) (r : Row), r ∈ f.rows ∧
    (∀ e ∈ [Expr.col "b", .not (.cmp .eq (.col "m") (.lit (.int 1))),
        .cmp .eq (.col "m") (.col "n")],
      reportedExact t e = true ∧ (eval (envOf (seen t f r)) e).toB = some false ∧
      (scan t [e] [f]).length = 1) := by
  refine ⟨Ex.tb, Ex.fb, [], by simp [Ex.fb], ?_⟩
  intro e he
  simp only [List.mem_cons, List.not_mem_nil, or_false] at he
  rcases he with rfl | rfl | rfl <;> decide +kernel

/-- A text partition column whose text is empty is NULL on the rows, and yet a scan with
`q < 'a'` returns them. -/
theorem C118_empty_text_not_enforced : ∃ (t : Table) (f : File) (e : Expr) (r : Row),
    r ∈ f.rows ∧ Simple t e ∧ reportedExact t e = true ∧
    (eval (envOf (seen t f r)) e).toB = none ∧ (scan t [e] [f]).length = 1 :=
  ⟨Ex.t, ⟨[("p", some "1"), ("q", some "")], none, [[]], [[]]⟩,
    .cmp .lt (.col "q") (.lit (.str "a")), [], by simp,
    .left (ty := .str) ⟨"q", rfl, by decide +kernel⟩ ⟨.str "a", rfl, .inr trivial⟩,
    by decide +kernel, by decide +kernel, by decide +kernel⟩

/-- A partition value that is stored as the marker of Hive or as an empty text is NULL on the rows of
the file, whatever the type of the column. -/
theorem C118_null_markers {t : Table} {f : File} {r : Row} {p : String} {ty : Ty}
    (h : t.parts.lookup p = some ty) (m : String) (hm : m = "" ∨ m = "__HIVE_DEFAULT_PARTITION__")
    (ht : f.pvals.lookup p = some (some m)) : eval (envOf (seen t f r)) (.isNull (.col p)) = .bool true := by
  have h1 := env_part (f := f) (r := r) h
  have h2 : f.text p = some m := by rw [File.text, ht]; rfl
  rw [eval, eval, h1, h2, readPart, if_pos (show m = "" ∨ m = hiveNull from hm)]
  rfl

example : eval (envOf (seen Ex.t ⟨[("p", some "1"), ("q", some "__HIVE_DEFAULT_PARTITION__")], none, [[]], [[]]⟩ []))
    (.isNull (.col "q")) = .bool true :=
  C118_null_markers (t := Ex.t) (ty := .str) (by decide +kernel) "__HIVE_DEFAULT_PARTITION__" (.inr rfl)
    (by decide +kernel)

namespace Spec

/-- The expression contains a cast. -/
def hasCast : Expr → Bool
  | .cast _ _ => true
  | .cmp _ l r => hasCast l || hasCast r
  | .and l r => hasCast l || hasCast r
  | .or l r => hasCast l || hasCast r
  | .not e => hasCast e
  | .isNull e => hasCast e
  | .isNotNull e => hasCast e
  | .between e _ lo hi => hasCast e || hasCast lo || hasCast hi
  | .inList e _ _ => hasCast e
  | .field e _ => hasCast e
  | .alias e => hasCast e
  | .col _ => false
  | .lit _ => false
  | .other _ _ => false

end Spec

theorem applicable_hasCast (parts : List String) (e : Expr) (h : Spec.hasCast e = true) :
    applicable parts e = false := by
  induction e with
  | col n => cases h
  | lit v => cases h
  | other _ _ => rfl
  | cast _ _ _ => rfl
  | alias _ _ => rfl
  | field _ _ _ => rfl
  | cmp op l r ihl ihr =>
    simp only [Spec.hasCast, Bool.or_eq_true] at h
    rcases h with h | h
    · simp [applicable, ihl h]
    · simp [applicable, ihr h]
  | and l r ihl ihr =>
    simp only [Spec.hasCast, Bool.or_eq_true] at h
    rcases h with h | h
    · simp [applicable, ihl h]
    · simp [applicable, ihr h]
  | or l r ihl ihr =>
    simp only [Spec.hasCast, Bool.or_eq_true] at h
    rcases h with h | h
    · simp [applicable, ihl h]
    · simp [applicable, ihr h]
  | not e ih => exact ih h
  | isNull e ih => exact ih h
  | isNotNull e ih => exact ih h
  | inList e vs neg ih => exact ih h
  | between e neg lo hi ihe ihl ihh =>
    simp only [Spec.hasCast, Bool.or_eq_true] at h
    rcases h with (h | h) | h
    · simp [applicable, ihe h]
    · simp [applicable, ihl h]
    · simp [applicable, ihh h]

/-- A filter with a cast anywhere, and a filter that reads no column, are left to the engine to check. -/
theorem C118_left_to_the_engine (t : Table) (e : Expr) (h : Spec.hasCast e = true ∨ e.cols = []) :
    reportedExact t e = false := by
  rcases h with h | h
  · rw [reportedExact, applicable_hasCast _ e h, Bool.and_false]
  · simp [reportedExact, Expr.free, h]

example : Spec.hasCast (.and (.cmp .eq (.cast (.col "p") .str) (.lit (.str "1"))) (.isNull (.col "q"))) = true ∧
    (Expr.cmp .eq (.lit (.int 1)) (.lit (.int 2))).cols = [] := ⟨rfl, rfl⟩

/-! ### C119 -/

/-- DELETE that rewrites files leaves exactly the rows for which the condition is not true. Partial:
the condition reads a data column, or is of the covered shapes with readable partition texts. -/
theorem C119_delete_leaves_the_others_partial {t : Table} {c : Expr} {fs : List File}
    (S : Sound t c fs)
    (h : (∃ n ∈ c.cols, n ∉ t.parts.map Prod.fst) ∨ (Simple t c ∧ ∀ f ∈ fs, Readable t f)) :
    List.Perm (deleteCow t c fs)
      ((content t fs).filter (fun r => (eval (envOf r) c).toB != some true)) := by
  have hnt : (fun r => (eval (envOf r) c).toB != some true) = notTrue c := rfl
  rw [hnt]
  unfold deleteCow scanByAdds
  dsimp only
  cases hq : requiresStats t c with
  | true =>
    simp only [Bool.not_true, Bool.false_eq_true, if_false]
    exact split_content S
  | false =>
    simp only [Bool.not_false, if_true, List.filter_nil]
    rcases h with ⟨n, hn, hn'⟩ | ⟨hs, hR⟩
    · have : requiresStats t c = true := by
        unfold requiresStats
        rw [List.any_eq_true]
        exact ⟨n, hn, by simpa [List.contains_iff_mem] using hn'⟩
      rw [this] at hq; cases hq
    · have := split_content S
      rw [dropped hs hR] at this
      exact this

example : List.Perm (deleteCow Ex.t Ex.c [Ex.f1, Ex.f2])
    ((content Ex.t [Ex.f1, Ex.f2]).filter (fun r => (eval (envOf r) Ex.c).toB != some true)) :=
  C119_delete_leaves_the_others_partial Ex.sound
    (.inl ⟨"x", by decide +kernel, by decide +kernel⟩)

example : List.Perm (deleteCow Ex.t Ex.c1 [Ex.f1, Ex.f2])
    ((content Ex.t [Ex.f1, Ex.f2]).filter (fun r => (eval (envOf r) Ex.c1).toB != some true)) :=
  C119_delete_leaves_the_others_partial Ex.sound1 (.inr ⟨Ex.simple1, Ex.readable⟩)

/-- DELETE with deletion vectors leaves exactly the rows for which the condition is not true, in
order. Partial: the condition reads a data column and no partition column. -/
theorem C119_deletion_vectors_leave_the_others_partial {t : Table} {c : Expr} {fs : List File}
    (S : Sound t c fs) (h : ∃ n, n ∈ c.cols) (hp : ∀ n ∈ c.cols, n ∉ t.parts.map Prod.fst) :
    deleteMor t c fs =
      (content t fs).filter (fun r => (eval (envOf r) c).toB != some true) := by
  obtain ⟨n, hn⟩ := h
  have hq : requiresStats t c = true := by
    unfold requiresStats
    rw [List.any_eq_true]
    exact ⟨n, hn, by simpa [List.contains_iff_mem] using hp n hn⟩
  unfold deleteMor
  rw [hq]
  simp only [Bool.not_true, Bool.false_eq_true, if_false]
  unfold content
  have hrow : ∀ f ∈ fs, (if chosen t c f = true then
        (f.rows.filter (fun r => !matches_ c r)).map (seen t f) else rowsOf t f) =
      (rowsOf t f).filter (fun r => (eval (envOf r) c).toB != some true) := by
    intro f hf
    split
    · unfold rowsOf
      rw [List.filter_map]
      congr 1
      apply List.filter_congr
      intro r hr
      simp only [matches_, Function.comp]
      rw [eval_congr c (fun n hn => env_stored (f := f) (r := r) (hp n hn))]
      rfl
    · next hc =>
      symm
      rw [List.filter_eq_self]
      intro x hx
      obtain ⟨r, hr, rfl⟩ := List.mem_map.mp hx
      cases hh : holds c (seen t f r) with
      | true => exact absurd (chosen_of_holds S hf hr hh) hc
      | false => simpa [holds, bne] using hh
  clear S
  induction fs with
  | nil => rfl
  | cons f fs ih =>
    rw [List.flatMap_cons, List.flatMap_cons, List.filter_append, hrow f List.mem_cons_self,
      ih (fun f hf => hrow f (List.mem_cons_of_mem _ hf))]

example : deleteMor Ex.t Ex.cx [Ex.f1, Ex.f2] =
    (content Ex.t [Ex.f1, Ex.f2]).filter (fun r => (eval (envOf r) Ex.cx).toB != some true) :=
  C119_deletion_vectors_leave_the_others_partial Ex.soundx ⟨"x", by decide +kernel⟩
    (by decide +kernel)

/-- Two of three rows are left. -/
example : (deleteMor Ex.t Ex.cx [Ex.f1, Ex.f2]).length = 2 ∧
    (deleteCow Ex.t Ex.c1 [Ex.f1, Ex.f2]).length = 1 := by decide +kernel

/-- Not so for a condition on partition columns that the rewriter does not know: `q LIKE 'a%'`
deletes every row of the table, also the ones for which it is false. -/
theorem C119_partition_condition_deletes_everything : ∃ (t : Table) (c : Expr) (fs : List File),
    (∀ f ∈ fs, Readable t f) ∧ Sound t c fs ∧ deleteCow t c fs = [] ∧ deleteMor t c fs = [] ∧
    ∃ f ∈ fs, ∃ r ∈ f.rows, (eval (envOf (seen t f r)) c).toB = some false := by
  refine ⟨Ex.t, Ex.like, [Ex.f1, Ex.f3], ?_, ⟨Ex.reserved, trivial, ?_⟩, rfl, rfl, Ex.f3,
    by simp, [("x", .int 1)], by simp [Ex.f3], by decide +kernel⟩
  · intro f hf
    simp only [List.mem_cons, List.not_mem_nil, or_false] at hf
    rcases hf with rfl | rfl
    · exact Ex.readable1
    · intro p ty h s hs
      rcases Ex.t_parts h with ⟨rfl, rfl⟩ | ⟨rfl, rfl⟩
      · have : Ex.f3.text "p" = some "3" := by decide +kernel
        rw [this] at hs; cases hs; decide +kernel
      · have : Ex.f3.text "q" = some "b" := by decide +kernel
        rw [this] at hs; cases hs; decide +kernel
  · intro f hf
    simp only [List.mem_cons, List.not_mem_nil, or_false] at hf
    rcases hf with rfl | rfl
    · exact ⟨Ex.describes1, trivial, fun _ _ => trivial⟩
    · exact ⟨⟨fun _ h => h, fun _ h => (by cases h), fun _ h => (by cases h),
        fun _ h => (by cases h), fun _ h => (by cases h)⟩, trivial, fun _ _ => trivial⟩

/-- Not so for deletion vectors and a condition that reads partition and data columns: partition
columns are NULL while the file is searched. A row that matches `p = 1 AND x = 8` is kept, and a row
that does not match `p IS NULL OR x = 8` is deleted. -/
theorem C119_deletion_vectors_mixed_condition : ∃ (t : Table) (f : File) (c d : Expr) (r s : Row),
    Describes t f ∧ Readable t f ∧ r ∈ f.rows ∧ s ∈ f.rows ∧
    (eval (envOf (seen t f r)) c).toB = some true ∧
    (deleteMor t c [f]).length = f.rows.length ∧
    (eval (envOf (seen t f s)) d).toB = some false ∧ deleteMor t d [f] = [] :=
  ⟨Ex.t, Ex.f1, Ex.cm, Ex.cn, [("x", .int 8)], [("x", .int 3)], Ex.describes1, Ex.readable1,
    by simp [Ex.f1], by simp [Ex.f1], by decide +kernel, by decide +kernel, by decide +kernel,
    List.eq_nil_of_length_eq_zero (by decide +kernel)⟩

/-! ### C120 -/

/-- Overwriting with a condition leaves the new rows and the old rows for which the condition is
not true. Partial: the condition is of the covered shapes, or it is not partition-only for the
writer and never null on a row of a file chosen. -/
theorem C120_replace_where_partial {t : Table} {wparts : List String} {c : Expr} {new : List Row}
    {fs : List File} (S : Sound t c fs)
    (h : (Simple t c ∧ (∀ f ∈ fs, Readable t f)) ∨
      ((∃ n ∈ c.cols, n ∉ wparts) ∧
        ∀ f ∈ fs, chosen t c f = true → ∀ r ∈ f.rows, (eval (envOf (seen t f r)) c).toB ≠ none)) :
    List.Perm (overwriteIf t wparts c new fs)
      ((content t fs).filter (fun r => (eval (envOf r) c).toB != some true) ++ new) := by
  have hnt : (fun r => (eval (envOf r) c).toB != some true) = notTrue c := rfl
  rw [hnt]
  unfold overwriteIf scanByAdds
  dsimp only
  have hmove : ∀ a b : List Row, List.Perm (a ++ new ++ b) (a ++ b ++ new) := by
    intro a b
    rw [List.append_assoc, List.append_assoc]
    exact List.Perm.append_left _ List.perm_append_comm
  refine (hmove _ _).trans (List.Perm.append_right _ ?_)
  rcases h with ⟨hs, hR⟩ | ⟨⟨n, hn, hn'⟩, hnn⟩
  · have hz : (content t (fs.filter (chosen t c))).filter (isFalse c) = [] := by
      rw [List.filter_eq_nil_iff]
      intro x hx
      obtain ⟨f, hf, hx⟩ := List.mem_flatMap.mp hx
      obtain ⟨r, hr, rfl⟩ := List.mem_map.mp hx
      rw [List.mem_filter] at hf
      have := holds_of_chosen (hR f hf.1) hs hf.2 r
      simp only [holds, beq_iff_eq] at this
      simp [isFalse, this, not3]
    have hsc := split_content S
    rw [dropped hs hR] at hsc
    split
    · exact hsc
    · rw [hz]; exact hsc
  · have hany : c.cols.any (fun n => !wparts.contains n) = true := by
      rw [List.any_eq_true]
      exact ⟨n, hn, by simpa [List.contains_iff_mem] using hn'⟩
    rw [hany]
    simp only [Bool.not_true, Bool.false_eq_true, if_false]
    have : (content t (fs.filter (chosen t c))).filter (isFalse c) =
        (content t (fs.filter (chosen t c))).filter (notTrue c) := by
      apply List.filter_congr
      intro x hx
      obtain ⟨f, hf, hx⟩ := List.mem_flatMap.mp hx
      obtain ⟨r, hr, rfl⟩ := List.mem_map.mp hx
      rw [List.mem_filter] at hf
      have := hnn f hf.1 hf.2 r hr
      unfold isFalse notTrue holds
      rcases hv : (eval (envOf (seen t f r)) c).toB with _ | (_ | _)
      · exact absurd hv this
      · rfl
      · rfl
    rw [this]
    exact split_content S

example : List.Perm (overwriteIf Ex.t ["p", "q"] Ex.c1 [[("p", .int 1), ("x", .int 9)]] [Ex.f1, Ex.f2])
    ((content Ex.t [Ex.f1, Ex.f2]).filter (fun r => (eval (envOf r) Ex.c1).toB != some true) ++
      [[("p", .int 1), ("x", .int 9)]]) :=
  C120_replace_where_partial Ex.sound1 (.inl ⟨Ex.simple1, Ex.readable⟩)

example : List.Perm (overwriteIf Ex.t ["p", "q"] Ex.cx [] [Ex.f1])
    ((content Ex.t [Ex.f1]).filter (fun r => (eval (envOf r) Ex.cx).toB != some true) ++ []) := by
  refine C120_replace_where_partial (t := Ex.t) (wparts := ["p", "q"]) ⟨Ex.reserved, Ex.soundx.casts,
    fun f hf => Ex.soundx.files f (by simp at hf; simp [hf])⟩
    (.inr ⟨⟨"x", by decide +kernel, by decide +kernel⟩, ?_⟩)
  intro f hf _ r hr
  simp only [List.mem_cons, List.not_mem_nil, or_false] at hf
  subst hf
  simp only [Ex.f1, List.mem_cons, List.not_mem_nil, or_false] at hr
  rcases hr with rfl | rfl <;> decide +kernel

/-- Not so where the condition is null: the row of a file that is chosen is lost. -/
theorem C120_null_condition_loses_rows : ∃ (t : Table) (wparts : List String) (c : Expr)
    (fs : List File), Sound t c fs ∧ (∃ n ∈ c.cols, n ∉ wparts) ∧ overwriteIf t wparts c [] fs = [] ∧
    ∃ f ∈ fs, ∃ r ∈ f.rows, (eval (envOf (seen t f r)) c).toB = none := by
  refine ⟨Ex.t, ["p", "q"], Ex.cx, [Ex.f2], ⟨Ex.reserved, Ex.soundx.casts,
    fun f hf => Ex.soundx.files f (by simp at hf; simp [hf])⟩,
    ⟨"x", by decide +kernel, by decide +kernel⟩,
    List.eq_nil_of_length_eq_zero (by decide +kernel), Ex.f2, by simp, [("x", .null)],
    by simp [Ex.f2], by decide +kernel⟩

/-- Not so for a condition on partition columns that the rewriter does not know: every old row is
lost. -/
theorem C120_partition_condition_replaces_everything : ∃ (t : Table) (c : Expr) (fs : List File),
    overwriteIf t (t.parts.map Prod.fst) c [] fs = [] ∧
    ∃ f ∈ fs, f.stats = none ∧ Readable t f ∧
      ∃ r ∈ f.rows, (eval (envOf (seen t f r)) c).toB = some false := by
  refine ⟨Ex.t, Ex.like, [Ex.f3], rfl, Ex.f3, by simp, rfl, ?_, [("x", .int 1)],
    by simp [Ex.f3], by decide +kernel⟩
  intro p ty h s hs
  rcases Ex.t_parts h with ⟨rfl, rfl⟩ | ⟨rfl, rfl⟩
  · have : Ex.f3.text "p" = some "3" := by decide +kernel
    rw [this] at hs; cases hs; decide +kernel
  · have : Ex.f3.text "q" = some "b" := by decide +kernel
    rw [this] at hs; cases hs; decide +kernel

end Verif.Delta.MetaFilter
