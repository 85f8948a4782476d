import Verif.Delta.RowDelete
import Verif.Delta.MetaFilterSound

namespace Verif.Delta.MetaFilter

namespace Spec

/-- A value of a type, not null. -/
def HasTy : Val → Ty → Prop
  | .int _, .int => True
  | .str _, .str => True
  | .bool _, .bool => True
  | _, _ => False

/-- A constant that a column of the type can be compared with. -/
def Const (ty : Ty) (v : Val) : Prop := v = .null ∨ HasTy v ty

/-- A partition column of the table, by name and type. -/
def Part (t : Table) (e : Expr) (ty : Ty) : Prop := ∃ p, e = .col p ∧ t.parts.lookup p = some ty

/-- A constant of the type. -/
def Lit (ty : Ty) (e : Expr) : Prop := ∃ v, e = .lit v ∧ Const ty v

/-- AND and OR of comparisons of a partition column with a constant of its type, BETWEEN, IN and
null checks on partition columns, and boolean constants. -/
inductive Simple (t : Table) : Expr → Prop
  | lit (v : Val) : Simple t (.lit v)
  | left {op l r ty} (hl : Part t l ty) (hr : Lit ty r) : Simple t (.cmp op l r)
  | right {op l r ty} (hl : Lit ty l) (hr : Part t r ty) : Simple t (.cmp op l r)
  | between {e neg lo hi ty} (he : Part t e ty) (hlo : Lit ty lo) (hhi : Lit ty hi) :
      Simple t (.between e neg lo hi)
  | inList {e vs neg ty} (he : Part t e ty) (hv : ∀ v ∈ vs, Const ty v) :
      Simple t (.inList e vs neg)
  | isNull {e ty} (he : Part t e ty) : Simple t (.isNull e)
  | isNotNull {e ty} (he : Part t e ty) : Simple t (.isNotNull e)
  | notNull {e ty} (he : Part t e ty) : Simple t (.not (.isNull e))
  | notNotNull {e ty} (he : Part t e ty) : Simple t (.not (.isNotNull e))
  | and {l r} (hl : Simple t l) (hr : Simple t r) : Simple t (.and l r)
  | or {l r} (hl : Simple t l) (hr : Simple t r) : Simple t (.or l r)

end Spec

open Spec

theorem raw_cmp_eq {ty : Ty} {s : Option String} {v : Val} (hv : Const ty v) (op : Op)
    (hR : ∀ x, s = some x → (readPart ty (some x)).isNull = false) :
    cmp3 op (rawVal s) v = cmp3 op (readPart ty s) v := by
  cases s with
  | none => rfl
  | some x =>
    have hR := hR x rfl
    simp only [readPart] at hR ⊢
    split at hR
    · cases hR
    · next hm =>
      rw [if_neg hm]
      unfold cmp3 rawVal
      rcases hv with rfl | hv
      · cases ty <;> simp only [castVal]
        · cases (parseInt x) <;> rfl
        · rfl
        · cases parseBool x <;> rfl
      · cases ty <;> cases v <;> simp only [HasTy] at hv <;> simp only [castVal, ord]
        · cases (parseInt x) <;> rfl
        · cases parseBool x <;> rfl

theorem readPart_cases (ty : Ty) (s : Option String) :
    readPart ty s = .null ∨ HasTy (readPart ty s) ty := by
  cases s with
  | none => exact .inl rfl
  | some x =>
    simp only [readPart]
    split
    · exact .inl rfl
    · cases ty <;> simp only [castVal]
      · cases (parseInt x) <;> simp [HasTy]
      · simp [HasTy]
      · cases parseBool x <;> simp [HasTy]

theorem cmp3_swap {ty : Ty} {v w : Val} (hv : Const ty v) (hw : Const ty w) (op : Op) :
    cmp3 op v w = cmp3 op.reverse w v := by
  unfold cmp3
  have key : ord w v = (ord v w).map Ordering.swap := by
    rcases hv with rfl | hv <;> rcases hw with rfl | hw
    · rfl
    · cases w <;> rfl
    · cases v <;> rfl
    · cases ty <;> cases v <;> simp only [HasTy] at hv <;> cases w <;> simp only [HasTy] at hw <;>
        simp only [ord, Option.map_some, Option.some.injEq] <;>
        exact (Std.OrientedCmp.eq_swap (cmp := compare))
  rw [key]
  cases ord v w with
  | none => rfl
  | some o => simp only [Option.map_some]; rw [reverse_holds]

section

variable {t : Table} {f : File} {r : Row}

theorem in3_congr {x y : Val} {vs : List Val} (h : ∀ v ∈ vs, cmp3 .eq x v = cmp3 .eq y v) :
    in3 x vs = in3 y vs := by
  induction vs with
  | nil => rfl
  | cons v vs ih =>
    simp only [in3]
    rw [h v List.mem_cons_self, ih (fun w hw => h w (List.mem_cons_of_mem _ hw))]

theorem isPartition_col {p : String} {ty : Ty} (h : t.parts.lookup p = some ty) :
    isPartition t ⟨[p], none⟩ = true := by
  simp [isPartition, Template.root, List.contains_iff_mem]
  obtain ⟨x, hx, hx'⟩ := List.mem_map.mp (mem_of_lookup h)
  exact ⟨x.2, by rw [← hx']; exact hx⟩

/-- On the covered filters, the rewritten one has on the file the value that the filter has on
each row. -/
theorem simple_eval (hR : Readable t f) {e : Expr} (hs : Simple t e) :
    (eval (metaEnv t f) (rewrite t e)).toB = (eval (envOf (seen t f r)) e).toB := by
  have env : ∀ {p ty}, t.parts.lookup p = some ty → ∀ {v}, Const ty v → ∀ op,
      cmp3 op (metaEnv t f p) v = cmp3 op (envOf (seen t f r) p) v := by
    intro p ty hl v hv op
    rw [env_part hl, meta_part hl]
    exact raw_cmp_eq hv op (fun x hx => hR p ty hl x hx)
  have nul : ∀ {p ty}, t.parts.lookup p = some ty →
      (metaEnv t f p).isNull = (envOf (seen t f r) p).isNull := by
    intro p ty hl
    rw [env_part hl, meta_part hl]
    cases hx : f.text p with
    | none => rfl
    | some x => rw [hR p ty hl x hx]; rfl
  induction hs with
  | lit v => rfl
  | left hl hr =>
    obtain ⟨p, rfl, hp⟩ := hl
    obtain ⟨v, rfl, hv⟩ := hr
    simp only [rewrite, rewriteComparison, Expr.free, Expr.cols, List.isEmpty_cons, Bool.false_and,
      Bool.false_eq_true, if_false, template, columnPath, Option.map_some, List.isEmpty_nil,
      Bool.not_true, rewriteTemplate, isPartition_col hp, if_true, Option.getD_some,
      Template.apply, Template.root, List.headD_cons, eval, toB_ofB]
    exact env hp hv _
  | @right op _ _ ty hl hr =>
    obtain ⟨p, rfl, hp⟩ := hr
    obtain ⟨v, rfl, hv⟩ := hl
    simp only [rewrite, rewriteComparison, Expr.free, Expr.cols, List.isEmpty_cons, Bool.and_false,
      Bool.false_eq_true, if_false, template, columnPath, Option.map_some, List.isEmpty_nil,
      Bool.not_true, rewriteTemplate, isPartition_col hp, if_true, Option.getD_some,
      Option.map_none, Template.apply, Template.root, List.headD_cons, eval, toB_ofB]
    rw [env hp hv, cmp3_swap (ty := ty) hv (by rw [env_part hp]; exact readPart_cases ty _)]
  | between he hlo hhi =>
    obtain ⟨p, rfl, hp⟩ := he
    obtain ⟨v, rfl, hv⟩ := hlo
    obtain ⟨w, rfl, hw⟩ := hhi
    simp only [rewrite, rewriteBetween, Expr.free, Expr.cols, Bool.false_eq_true, if_false,
      template, columnPath, Option.map_some, List.isEmpty_nil, Bool.not_true, Bool.or_self,
      isPartition_col hp, if_true, Option.getD_some, eval, toB_ofB]
    rw [env hp hv, env hp hw]
  | inList he hv =>
    obtain ⟨p, rfl, hp⟩ := he
    simp only [rewrite, rewriteInList, template, columnPath, Option.map_some, isPartition_col hp,
      if_true, Option.getD_some, eval, toB_ofB]
    rw [in3_congr (fun v h => env hp (hv v h) .eq)]
  | isNull he =>
    obtain ⟨p, rfl, hp⟩ := he
    simp only [rewrite, rewriteNullCheck, template, columnPath, Option.map_some,
      isPartition_col hp, if_true, Option.getD_some, Bool.false_eq_true, if_false, eval]
    rw [nul hp]
  | isNotNull he =>
    obtain ⟨p, rfl, hp⟩ := he
    simp only [rewrite, rewriteNullCheck, template, columnPath, Option.map_some,
      isPartition_col hp, if_true, Option.getD_some, eval]
    rw [nul hp]
  | notNull he =>
    obtain ⟨p, rfl, hp⟩ := he
    simp only [rewrite, rewriteNullCheck, template, columnPath, Option.map_some,
      isPartition_col hp, if_true, Option.getD_some, eval, toB_ofB]
    rw [nul hp]; rfl
  | notNotNull he =>
    obtain ⟨p, rfl, hp⟩ := he
    simp only [rewrite, rewriteNullCheck, template, columnPath, Option.map_some,
      isPartition_col hp, if_true, Option.getD_some, Bool.false_eq_true, if_false, eval, toB_ofB]
    rw [nul hp]; cases (envOf (seen t f r) p).isNull <;> rfl
  | and hl hr ihl ihr => simp only [rewrite, eval, toB_ofB]; rw [ihl, ihr]
  | or hl hr ihl ihr => simp only [rewrite, eval, toB_ofB]; rw [ihl, ihr]

end

/-! ### Files -/

/-- What the theorems ask of the files for a condition: truthful statistics, partition texts that
can be read if there is a null check, and no raw texts in the rows. -/
structure Spec.Sound (t : Table) (e : Expr) (fs : List File) : Prop where
  reserved : "stats_parsed" ∉ t.parts.map Prod.fst
  casts : CastsOk t e
  files : ∀ f ∈ fs, Describes t f ∧ NullChecksOk t f e ∧
    ∀ r ∈ f.rows, NoRaw (envOf (seen t f r)) e

theorem chosen_of_holds {t : Table} {e : Expr} {fs : List File} (S : Sound t e fs) {f : File}
    (hf : f ∈ fs) {r : Row} (hr : r ∈ f.rows) (h : holds e (seen t f r) = true) :
    chosen t e f = true := by
  obtain ⟨D, hn, hraw⟩ := S.files f hf
  have h : True_ (envOf (seen t f r)) e := by simpa [holds, True_] using h
  have := rewrite_sound S.reserved D (D.live r hr) e hn S.casts (hraw r hr) h
  simpa [chosen, True_] using this

theorem holds_of_chosen {t : Table} {e : Expr} {f : File} (hR : Readable t f) (hs : Simple t e)
    (h : chosen t e f = true) (r : Row) : holds e (seen t f r) = true := by
  unfold chosen at h
  unfold holds
  rw [← simple_eval hR hs]; exact h

theorem filter_partition {α β : Type} (p : α → Bool) (g : α → List β) (l : List α) :
    List.Perm ((l.filter (fun a => !p a)).flatMap g ++ (l.filter p).flatMap g) (l.flatMap g) := by
  induction l with
  | nil => exact List.Perm.refl _
  | cons a as ih =>
    cases hp : p a
    · simp only [List.filter_cons, hp, Bool.not_false, if_true, List.flatMap_cons,
        Bool.false_eq_true, if_false, List.append_assoc]
      exact List.Perm.append_left _ ih
    · simp only [List.filter_cons, hp, Bool.not_true, if_true, List.flatMap_cons,
        Bool.false_eq_true, if_false]
      refine List.Perm.trans ?_ (List.Perm.append_left (g a) ih)
      rw [← List.append_assoc, ← List.append_assoc]
      exact List.Perm.append_right _ List.perm_append_comm

/-- Rows of files that are not chosen are not matched. -/
theorem untouched {t : Table} {c : Expr} {fs : List File} (S : Sound t c fs) :
    content t (fs.filter (fun f => !chosen t c f)) =
      (content t (fs.filter (fun f => !chosen t c f))).filter (notTrue c) := by
  symm
  rw [List.filter_eq_self]
  intro x hx
  obtain ⟨f, hf, hx⟩ := List.mem_flatMap.mp hx
  obtain ⟨r, hr, rfl⟩ := List.mem_map.mp hx
  rw [List.mem_filter] at hf
  cases h : holds c (seen t f r) with
  | false => simp [notTrue, h]
  | true => have := chosen_of_holds S hf.1 hr h; simp [this] at hf

theorem split_content {t : Table} {c : Expr} {fs : List File} (S : Sound t c fs) :
    List.Perm (content t (fs.filter (fun f => !chosen t c f)) ++
        (content t (fs.filter (chosen t c))).filter (notTrue c))
      ((content t fs).filter (notTrue c)) := by
  rw [untouched S, ← List.filter_append]
  exact (filter_partition (chosen t c) (rowsOf t) fs).filter _

/-- With a covered condition nothing of a chosen file is kept. -/
theorem dropped {t : Table} {c : Expr} {fs : List File} (hs : Simple t c)
    (hR : ∀ f ∈ fs, Readable t f) :
    (content t (fs.filter (chosen t c))).filter (notTrue c) = [] := by
  rw [List.filter_eq_nil_iff]
  intro x hx
  obtain ⟨f, hf, hx⟩ := List.mem_flatMap.mp hx
  obtain ⟨r, hr, rfl⟩ := List.mem_map.mp hx
  rw [List.mem_filter] at hf
  simp [notTrue, holds_of_chosen (hR f hf.1) hs hf.2 r]

theorem rewrite_conj {t : Table} {env : String → Val} (es : List Expr) (e : Expr) :
    True_ env (rewrite t (es.foldl .and e)) ↔
      True_ env (rewrite t e) ∧ ∀ x ∈ es, True_ env (rewrite t x) := by
  induction es generalizing e with
  | nil => simp
  | cons a as ih =>
    simp only [List.foldl_cons]
    rw [ih]
    simp only [rewrite, true_and, List.mem_cons, forall_eq_or_imp]
    constructor
    · rintro ⟨⟨h1, h2⟩, h3⟩; exact ⟨h1, h2, h3⟩
    · rintro ⟨h1, h2, h3⟩; exact ⟨⟨h1, h2⟩, h3⟩

/-- A column that is not a partition column reads the same with and without partition values. -/
theorem env_stored {t : Table} {f : File} {r : Row} {n : String}
    (h : n ∉ t.parts.map Prod.fst) : envOf (seen t f r) n = envOf r n := by
  unfold envOf seen
  have key : ∀ (l : List (String × Ty)), n ∉ l.map Prod.fst →
      (l.map (fun p => (p.1, readPart p.2 (f.text p.1))) ++ r).lookup n = r.lookup n := by
    intro l
    induction l with
    | nil => intro _; rfl
    | cons a as ih =>
      intro h
      simp only [List.map_cons, List.mem_cons, not_or] at h
      simp only [List.map_cons, List.cons_append]
      rw [List.lookup_cons]
      have : (n == a.1) = false := by simpa using h.1
      rw [this]
      exact ih h.2
  rw [key _ h]

theorem eval_congr (e : Expr) {env env' : String → Val} (h : ∀ n ∈ e.cols, env n = env' n) :
    eval env e = eval env' e := by
  induction e with
  | col n => exact h n (by simp [Expr.cols])
  | lit v => rfl
  | field e n ih => simp only [eval]; rw [ih h]
  | cmp op l r ihl ihr =>
    simp only [Expr.cols, List.mem_append] at h
    simp only [eval]
    rw [ihl (fun n hn => h n (.inl hn)), ihr (fun n hn => h n (.inr hn))]
  | and l r ihl ihr =>
    simp only [Expr.cols, List.mem_append] at h
    simp only [eval]
    rw [ihl (fun n hn => h n (.inl hn)), ihr (fun n hn => h n (.inr hn))]
  | or l r ihl ihr =>
    simp only [Expr.cols, List.mem_append] at h
    simp only [eval]
    rw [ihl (fun n hn => h n (.inl hn)), ihr (fun n hn => h n (.inr hn))]
  | not e ih => simp only [eval]; rw [ih h]
  | between e neg lo hi ihe ihl ihh =>
    simp only [Expr.cols, List.mem_append] at h
    simp only [eval]
    rw [ihe (fun n hn => h n (.inl hn)), ihl (fun n hn => h n (.inr (.inl hn))),
      ihh (fun n hn => h n (.inr (.inr hn)))]
  | inList e vs neg ih => simp only [eval]; rw [ih h]
  | isNull e ih => simp only [eval]; rw [ih h]
  | isNotNull e ih => simp only [eval]; rw [ih h]
  | cast e ty ih => simp only [eval]; rw [ih h]
  | alias e ih => simp only [eval]; rw [ih h]
  | other reads g =>
    simp only [Expr.cols] at h
    simp only [eval]; rw [List.map_congr_left h]

end Verif.Delta.MetaFilter
