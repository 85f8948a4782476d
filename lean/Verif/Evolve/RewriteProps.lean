import Verif.Evolve.Rewrite
import Verif.Evolve.CastProps
import Mathlib.Data.List.Nodup

/-! C142: expressions pushed into a scan mean the same on files with an older schema. -/

namespace Verif.Evolve

open Spec (Val conv)

variable {leafCan : Nat → Nat → Bool} {zero : Ty → Option Int} {m : Matching} {g : Nat → Nat → Int → Int}

/-! ### What an expression means -/

/-- The field of a struct with the name, with its type. -/
def Spec.member (field : String) (x : Ty × Val) : Ty × Val :=
  (x.1.fields.bind fun fs =>
    (fs.toList.findIdx? fun f => decide (f.name = field)).bind fun i =>
    (fs.toList[i]?).map fun f => (f.ty, (Spec.members x.1 x.2).elim Val.null fun p => p.2.getD i .null)).getD
    (.leaf 0, .null)

/-- The type and value of an expression on a row. A column is read at its index; `ops` gives the other functions
a meaning. -/
def Spec.eval (g : Nat → Nat → Int → Int) (m : Matching) (ops : Nat → Ty × Val → Ty × Val → Ty × Val)
    (schema : List Fld) (row : List Val) : Expr → Ty × Val
  | .col _ i => ((schema[i]?).elim (.leaf 0) Fld.ty, row.getD i .null)
  | .lit t v => (t, v.elim .null .leaf)
  | .evolve e s t => (t.ty, conv g m t.ty s.ty (Spec.eval g m ops schema row e).2)
  | .get e field => Spec.member field (Spec.eval g m ops schema row e)
  | .op f l r => ops f (Spec.eval g m ops schema row l) (Spec.eval g m ops schema row r)

/-- The value of a column of the table in a row of the file: the converted value of the first column of the file
with its identity, or NULL. -/
def Spec.column (g : Nat → Nat → Int → Int) (m : Matching) (physical : List Fld) (row : List Val) (f : Fld) : Val :=
  ((physical.zipIdx.find? fun p => matchesField m p.1 f)).elim .null
    fun p => conv g m f.ty p.1.ty (row.getD p.2 .null)

/-- The row of the table that a row of the file stands for. -/
def Spec.tableRow (g : Nat → Nat → Int → Int) (m : Matching) (logical physical : List Fld) (row : List Val) :
    List Val := logical.map (Spec.column g m physical row)

/-- The columns of the expression are columns of the table, by name and by index. -/
def Spec.bound (logical : List Fld) : Expr → Prop
  | .col name i => ∃ f, logical[i]? = some f ∧ f.name = name
  | .lit _ _ => True
  | .evolve e _ _ => Spec.bound logical e
  | .get e _ => Spec.bound logical e
  | .op _ l r => Spec.bound logical l ∧ Spec.bound logical r

open Spec (eval column tableRow bound member)

theorem findIdx?_zipIdx {α : Type} (p : α → Bool) : ∀ (l : List α) (k : Nat),
    (l.zipIdx k).find? (fun x => p x.1) = (l.findIdx? p).bind fun i => (l[i]?).map fun a => (a, i + k)
  | [], k => rfl
  | a :: l, k => by
    rw [List.zipIdx_cons, List.find?_cons, List.findIdx?_cons]
    cases h : p a with
    | true => simp
    | false =>
      simp only [Bool.false_eq_true, if_false]
      rw [findIdx?_zipIdx p l (k + 1)]
      cases l.findIdx? p with
      | none => rfl
      | some i =>
        simp only [Option.bind_some, Option.map_some, List.getElem?_cons_succ]
        rw [show i + (k + 1) = i + 1 + k by omega]

theorem column_eq (physical : List Fld) (row : List Val) (f : Fld) :
    column g m physical row f = ((find m physical f).bind fun i => physical[i]?.map fun p => (p, i)).elim .null
      fun p => conv g m f.ty p.1.ty (row.getD p.2 .null) := by
  unfold column find
  rw [findIdx?_zipIdx (fun s => matchesField m s f) physical 0]
  rfl

theorem indexOf_bound {logical : List Fld} (unique : (logical.map Fld.name).Nodup) {i : Nat} {f : Fld}
    (h : logical[i]? = some f) : indexOf logical f.name = some i := by
  obtain ⟨hi, hf⟩ := List.getElem?_eq_some_iff.1 h
  unfold indexOf
  rw [List.findIdx?_eq_some_iff_getElem]
  refine ⟨hi, by simp [hf], fun j hj => ?_⟩
  simp only [decide_eq_true_eq]
  intro e
  have hj' : j < logical.length := by omega
  have := (List.nodup_iff_getElem?_ne_getElem?.1 unique) j i hj (by simpa using hi)
  apply this
  rw [List.getElem?_map, List.getElem?_map, h, List.getElem?_eq_getElem hj']
  simp [e]

theorem indexOf_some {schema : List Fld} {name : String} {i : Nat} (h : indexOf schema name = some i) :
    ∃ f, schema[i]? = some f ∧ f.name = name := by
  unfold indexOf at h
  rw [List.findIdx?_eq_some_iff_getElem] at h
  obtain ⟨hi, hn, _⟩ := h
  exact ⟨schema[i], List.getElem?_eq_getElem hi, by simpa using hn⟩

theorem find_some {sources : List Fld} {t : Fld} {i : Nat} (h : find m sources t = some i) :
    ∃ s, sources[i]? = some s ∧ matchesField m s t = true := by
  unfold find at h
  rw [List.findIdx?_eq_some_iff_getElem] at h
  obtain ⟨hi, hn, _⟩ := h
  exact ⟨sources[i], List.getElem?_eq_getElem hi, hn⟩

/-! ### The rewriting, in general -/

/-- What the rewriting of a column may be. -/
theorem rewriteColumn_cases {logical physical : List Fld} (unique : (logical.map Fld.name).Nodup)
    (first : ∀ f ∈ logical, ∀ (i : Nat) (p : Fld), find m physical f = some i → physical[i]? = some p →
      indexOf physical p.name = some i)
    {f : Fld} {i : Nat} (hf : logical[i]? = some f) {e : Expr}
    (h : rewriteColumn leafCan zero m logical physical f.name i = some e) :
    (find m physical f = none ∧ e = defaultValue zero f)
    ∨ ∃ j p, find m physical f = some j ∧ physical[j]? = some p
        ∧ ((f.ty = p.ty ∧ e = .col p.name j) ∨ e = .evolve (.col p.name j) p f) := by
  unfold rewriteColumn at h
  rw [indexOf_bound unique hf] at h
  dsimp only at h
  rw [hf] at h
  dsimp only at h
  cases hj : find m physical f with
  | none =>
    rw [hj] at h
    exact Or.inl ⟨rfl, by simpa using h.symm⟩
  | some j =>
    rw [hj] at h
    dsimp only at h
    obtain ⟨p, hp, _⟩ := find_some hj
    rw [hp] at h
    dsimp only at h
    right
    refine ⟨j, p, rfl, hp, ?_⟩
    unfold existingColumn at h
    have hc : (if i ≠ j ∨ f.name ≠ p.name then (indexOf physical p.name).map (Expr.col p.name)
        else some (.col f.name i)) = some (.col p.name j) := by
      split
      · rw [first f (List.mem_of_getElem? hf) j p hj hp]; rfl
      · next hn =>
        have hn' : i = j ∧ f.name = p.name := by
          refine ⟨Classical.byContradiction fun c => hn (Or.inl c), Classical.byContradiction fun c => hn (Or.inr c)⟩
        rw [hn'.1, hn'.2]
    rw [hc, Option.bind_some] at h
    split at h
    · next ht => left; exact ⟨ht, by simpa using h.symm⟩
    · split at h
      · right; simpa using h.symm
      · cases h

/-- The rewritten expression, evaluated on the row of the file, has the type and value of the expression on the
row of the table. -/
theorem rewrite_eval {logical physical : List Fld} (unique : (logical.map Fld.name).Nodup)
    (first : ∀ f ∈ logical, ∀ (i : Nat) (p : Fld), find m physical f = some i → physical[i]? = some p →
      indexOf physical p.name = some i)
    (optional : ∀ f ∈ logical, find m physical f = none → f.nullable = true)
    (kept : ∀ (i j : Nat) (f p : Fld) (field : String), logical[i]? = some f → find m physical f = some j →
      physical[j]? = some p → f.ty = p.ty → droppedField m logical physical p.name field = none)
    (ops : Nat → Ty × Val → Ty × Val → Ty × Val) (row : List Val) : ∀ (e e' : Expr), bound logical e →
    rewrite leafCan zero m logical physical e = some e' →
    eval g m ops physical row e' = eval g m ops logical (tableRow g m logical physical row) e
  | .lit t v, e', _, h => by
    simp only [rewrite, Option.some.injEq] at h
    subst h
    rfl
  | .evolve e s t, e', hb, h => by
    simp only [rewrite, Option.map_eq_some_iff] at h
    obtain ⟨x, hx, rfl⟩ := h
    rw [eval, eval, rewrite_eval unique first optional kept ops row e x hb hx]
  | .op f l r, e', hb, h => by
    simp only [rewrite, Option.bind_eq_some_iff, Option.map_eq_some_iff] at h
    obtain ⟨x, hx, y, hy, rfl⟩ := h
    rw [eval, eval, rewrite_eval unique first optional kept ops row l x hb.1 hx,
      rewrite_eval unique first optional kept ops row r y hb.2 hy]
  | .get e field, e', hb, h => by
    simp only [rewrite, Option.map_eq_some_iff] at h
    obtain ⟨x, hx, rfl⟩ := h
    have ih := rewrite_eval unique first optional kept ops row e x hb hx
    have hg : rewriteGet m logical physical field x = .get x field := by
      cases x with
      | lit _ _ => rfl
      | evolve _ _ _ => rfl
      | get _ _ => rfl
      | op _ _ _ => rfl
      | col name index =>
        have : droppedField m logical physical name field = none := by
          cases e with
          | lit _ _ => simp [rewrite] at hx
          | evolve _ _ _ => simp [rewrite] at hx
          | op _ _ _ =>
            simp only [rewrite, Option.bind_eq_some_iff, Option.map_eq_some_iff] at hx
            obtain ⟨_, _, _, _, hx⟩ := hx
            cases hx
          | get e2 fld =>
            simp only [rewrite, Option.map_eq_some_iff] at hx
            obtain ⟨z, _, hz⟩ := hx
            cases z with
            | col _ _ =>
              rw [rewriteGet] at hz
              split at hz <;> cases hz
            | lit _ _ => cases hz
            | evolve _ _ _ => cases hz
            | get _ _ => cases hz
            | op _ _ _ => cases hz
          | col n i =>
            obtain ⟨f, hf, rfl⟩ := hb
            rw [rewrite] at hx
            rcases rewriteColumn_cases unique first hf hx with ⟨_, hd⟩ | ⟨j, p, hj, hp, ⟨ht, hc⟩ | hc⟩
            · unfold defaultValue at hd
              split at hd
              · cases hd
              · split at hd <;> cases hd
            · injection hc with h1 _
              rw [h1]
              exact kept i j f p field hf hj hp ht
            · cases hc
        rw [rewriteGet, this]
    rw [hg, eval, eval, ih]
  | .col name i, e', hb, h => by
    obtain ⟨f, hf, rfl⟩ := hb
    rw [rewrite] at h
    have hval : (tableRow g m logical physical row).getD i .null = column g m physical row f := by
      unfold tableRow
      rw [List.getD_eq_getElem?_getD, List.getElem?_map, hf]
      rfl
    have hl : eval g m ops logical (tableRow g m logical physical row) (.col f.name i)
        = (f.ty, column g m physical row f) := by
      rw [eval, hf, hval]
      rfl
    rw [hl, column_eq]
    rcases rewriteColumn_cases unique first hf h with ⟨hn, rfl⟩ | ⟨j, p, hj, hp, ⟨ht, rfl⟩ | rfl⟩
    · rw [hn, defaultValue, if_pos (optional f (List.mem_of_getElem? hf) hn)]
      rfl
    · rw [hj, Option.bind_some, hp]
      simp only [Option.map_some, Option.elim_some]
      rw [eval, hp, ht, conv_self]
      rfl
    · rw [hj, Option.bind_some, hp]
      rfl

/-! ### The claims -/

/-- A table without column mapping (columns are found by name): an expression that is rewritten without an error
has on the rows of the file the type and value that it has on the rows of the table, if no required column is
missing in the file. -/
theorem C142_by_name {logical physical : List Fld} (unique : (logical.map Fld.name).Nodup)
    (optional : ∀ f ∈ logical, f.nullable = false → ∃ p ∈ physical, p.name = f.name)
    (ops : Nat → Ty × Val → Ty × Val → Ty × Val) (row : List Val) {e e' : Expr} (columns : bound logical e)
    (rewritten : rewrite leafCan zero .name logical physical e = some e') :
    eval g .name ops physical row e' = eval g .name ops logical (tableRow g .name logical physical row) e := by
  have hfind : ∀ (sources : List Fld) (f : Fld), find .name sources f = indexOf sources f.name := fun _ _ => rfl
  have hname : ∀ (f p : Fld) (j : Nat), find .name physical f = some j → physical[j]? = some p → p.name = f.name := by
    intro f p j hj hp
    obtain ⟨s, hs, hm⟩ := find_some hj
    rw [hp, Option.some.injEq] at hs
    subst hs
    simpa [matchesField] using hm
  refine rewrite_eval unique ?_ ?_ ?_ ops row e e' columns rewritten
  · intro f _ i p hi hp
    rw [hname f p i hi hp, ← hfind]
    exact hi
  · intro f hf hn
    cases hnl : f.nullable with
    | true => rfl
    | false =>
      obtain ⟨p, hp, hpn⟩ := optional f hf hnl
      unfold find at hn
      rw [List.findIdx?_eq_none_iff] at hn
      have := hn p hp
      simp [matchesField, hpn] at this
  · intro i j f p field hf hj hp ht
    unfold droppedField
    rw [hname f p j hj hp, indexOf_bound unique hf, Option.bind_some, hf, Option.bind_some, hj, Option.bind_some,
      hp, Option.bind_some, ht]
    cases p.ty.fields with
    | none => rfl
    | some fs =>
      rw [Option.bind_some, Option.bind_some]
      cases ht : fs.toList.find? (fun f => decide (f.name = field)) with
      | none => rfl
      | some t =>
        rw [Option.bind_some, if_pos]
        unfold find
        rw [List.findIdx?_isSome, List.any_eq_true]
        exact ⟨t, List.mem_of_find?_eq_some ht, by simp [matchesField]⟩

/-- A table with column mapping or field ids: the same, if no column of the file that stands for a column of the
table has the name of another column of the table, no two columns of the file have the same name, and the fields
of structs that were not changed have identities. Without the first condition it is wrong
(`C142_swapped_names`). -/
theorem C142_by_identity_partial {logical physical : List Fld} (unique : (logical.map Fld.name).Nodup)
    (unique_file : (physical.map Fld.name).Nodup)
    (optional : ∀ f ∈ logical, f.nullable = false → ∃ p ∈ physical, matchesField m p f = true)
    (own_names : ∀ f ∈ logical, ∀ p ∈ physical, matchesField m p f = true → ∀ f' ∈ logical, f'.name = p.name → f' = f)
    (identified : ∀ f ∈ logical, ∀ fs, f.ty = .struct fs → ∀ t ∈ fs.toList, ∃ s ∈ fs.toList, matchesField m s t = true)
    (ops : Nat → Ty × Val → Ty × Val → Ty × Val) (row : List Val) {e e' : Expr} (columns : bound logical e)
    (rewritten : rewrite leafCan zero m logical physical e = some e') :
    eval g m ops physical row e' = eval g m ops logical (tableRow g m logical physical row) e := by
  refine rewrite_eval unique ?_ ?_ ?_ ops row e e' columns rewritten
  · intro f _ i p _ hp
    exact indexOf_bound unique_file hp
  · intro f hf hn
    cases hnl : f.nullable with
    | true => rfl
    | false =>
      obtain ⟨p, hp, hpm⟩ := optional f hf hnl
      unfold find at hn
      rw [List.findIdx?_eq_none_iff] at hn
      rw [hn p hp] at hpm
      cases hpm
  · intro i j f p field hf hj hp ht
    obtain ⟨p', hp', hm⟩ := find_some hj
    rw [hp, Option.some.injEq] at hp'
    subst hp'
    have hfm := List.mem_of_getElem? hf
    unfold droppedField
    cases hi : indexOf logical p.name with
    | none => rfl
    | some k =>
      obtain ⟨f', hf', hn'⟩ := indexOf_some hi
      have : f' = f := own_names f hfm p (List.mem_of_getElem? hp) hm f' (List.mem_of_getElem? hf') hn'
      subst this
      rw [Option.bind_some, hf', Option.bind_some, hj, Option.bind_some, hp, Option.bind_some, ← ht]
      cases hfs : f'.ty.fields with
      | none => rfl
      | some fs =>
        rw [Option.bind_some, Option.bind_some]
        cases hfi : fs.toList.find? (fun f => decide (f.name = field)) with
        | none => rfl
        | some t =>
          rw [Option.bind_some, if_pos]
          have hst : f'.ty = .struct fs := by
            cases hty : f'.ty with
            | struct x => rw [hty] at hfs; simpa [Ty.fields] using hfs
            | leaf _ => rw [hty] at hfs; cases hfs
            | list _ => rw [hty] at hfs; cases hfs
          obtain ⟨s, hs, hsm⟩ := identified f' hfm fs hst t (List.mem_of_find?_eq_some hfi)
          unfold find
          rw [List.findIdx?_isSome, List.any_eq_true]
          exact ⟨s, hs, hsm⟩

/-- The rewriting fails only because of a column whose type cannot be converted: if every column of the table
that the file has passes the check, every expression over the table is rewritten. -/
theorem C142_accepts {logical physical : List Fld} (unique : (logical.map Fld.name).Nodup)
    (castable : ∀ f ∈ logical, ∀ p ∈ physical, matchesField m p f = true → f.ty ≠ p.ty → canCast leafCan m p f = true) :
    ∀ {e : Expr}, bound logical e → ∃ e', rewrite leafCan zero m logical physical e = some e'
  | .lit t v, _ => ⟨_, rfl⟩
  | .evolve e s t, h => by
    obtain ⟨x, hx⟩ := C142_accepts unique castable (e := e) h
    exact ⟨_, by rw [rewrite, hx]; rfl⟩
  | .get e field, h => by
    obtain ⟨x, hx⟩ := C142_accepts unique castable (e := e) h
    exact ⟨_, by rw [rewrite, hx]; rfl⟩
  | .op f l r, h => by
    obtain ⟨x, hx⟩ := C142_accepts unique castable (e := l) h.1
    obtain ⟨y, hy⟩ := C142_accepts unique castable (e := r) h.2
    exact ⟨_, by rw [rewrite, hx, hy]; rfl⟩
  | .col name i, h => by
    obtain ⟨f, hf, rfl⟩ := h
    have hfm := List.mem_of_getElem? hf
    rw [rewrite, rewriteColumn, indexOf_bound unique hf]
    dsimp only
    rw [hf]
    dsimp only
    cases hj : find m physical f with
    | none => exact ⟨_, rfl⟩
    | some j =>
      obtain ⟨p, hp, hm⟩ := find_some hj
      have hpm := List.mem_of_getElem? hp
      dsimp only
      rw [hp]
      dsimp only
      unfold existingColumn
      have hc : ∃ c, (if i ≠ j ∨ f.name ≠ p.name then (indexOf physical p.name).map (Expr.col p.name)
          else some (.col f.name i)) = some c := by
        split
        · have : (indexOf physical p.name).isSome = true := by
            unfold indexOf
            rw [List.findIdx?_isSome, List.any_eq_true]
            exact ⟨p, hpm, by simp⟩
          obtain ⟨k, hk⟩ := Option.isSome_iff_exists.1 this
          exact ⟨_, by rw [hk]; rfl⟩
        · exact ⟨_, rfl⟩
      obtain ⟨c, hc⟩ := hc
      rw [hc, Option.bind_some]
      by_cases ht : f.ty = p.ty
      · exact ⟨_, by rw [if_pos ht]⟩
      · exact ⟨_, by rw [if_neg ht, if_pos (castable f hfm p hpm hm ht)]⟩

/-- A column that is required in the table and missing in the file is read as zero instead of being refused (the
same inside a struct is refused, `C141_missing_required`). -/
theorem C142_missing_required {logical physical : List Fld} (unique : (logical.map Fld.name).Nodup) {f : Fld} {i : Nat}
    (column : logical[i]? = some f) (required : f.nullable = false)
    (missing : ∀ p ∈ physical, matchesField m p f = false) {z : Int} (has_zero : zero f.ty = some z) :
    rewrite leafCan zero m logical physical (.col f.name i) = some (.lit f.ty (some z)) := by
  have hn : find m physical f = none := by
    unfold find
    rw [List.findIdx?_eq_none_iff]
    exact missing
  rw [rewrite, rewriteColumn, indexOf_bound unique column]
  dsimp only
  rw [column]
  dsimp only
  rw [hn]
  dsimp only
  rw [defaultValue, required, if_neg (by decide), has_zero]

/-! ### Examples -/

/-- A table with `a: struct<x>` and `b: struct<y, x>`; the file was written when `a` was called `b`, `b` was
called `a`, and the latter did not yet have its field `x`. -/
def Spec.tableNow : List Fld :=
  [.mk "a" none (some 1) true (.struct (.cons (.mk "x" none (some 3) true (.leaf 1)) .nil)),
   .mk "b" none (some 2) true
     (.struct (.cons (.mk "y" none (some 4) true (.leaf 1)) (.cons (.mk "x" none (some 5) true (.leaf 1)) .nil)))]
def Spec.fileThen : List Fld :=
  [.mk "b" none (some 1) true (.struct (.cons (.mk "x" none (some 3) true (.leaf 1)) .nil)),
   .mk "a" none (some 2) true (.struct (.cons (.mk "y" none (some 4) true (.leaf 1)) .nil))]

/-- `a.x` is rewritten to NULL, although the file has the values: the renamed column is looked up by its old name
in the new schema. -/
theorem C142_swapped_names (ops : Nat → Ty × Val → Ty × Val → Ty × Val) (x : Int) :
    rewrite leafCan zero .fieldId Spec.tableNow Spec.fileThen (.get (.col "a" 0) "x") = some (.lit (.leaf 1) none)
    ∧ (eval g .fieldId ops Spec.tableNow
        (tableRow g .fieldId Spec.tableNow Spec.fileThen [.struct [.leaf x], .struct [.leaf 8]])
        (.get (.col "a" 0) "x")).2 = .leaf x
    ∧ (Spec.tableNow.map Fld.name).Nodup ∧ (Spec.fileThen.map Fld.name).Nodup := by
  refine ⟨by rfl, ?_, by decide, by decide⟩
  simp [eval, tableRow, column, Spec.tableNow, Spec.fileThen, member, Ty.fields, Flds.toList, matchesField, Fld.id,
    Fld.ty, Fld.name, Spec.members, List.findIdx?_cons, conv_self]

/-- The same file with other old names: the conditions of `C142_by_identity_partial` hold, the column is found
under its old name, and the added field is NULL after the cast. -/
def Spec.fileOld : List Fld :=
  [.mk "q" none (some 2) true (.struct (.cons (.mk "y" none (some 4) true (.leaf 1)) .nil)),
   .mk "p" none (some 1) true (.struct (.cons (.mk "x" none (some 3) true (.leaf 1)) .nil))]

example : (Spec.tableNow.map Fld.name).Nodup ∧ (Spec.fileOld.map Fld.name).Nodup
    ∧ (∀ f ∈ Spec.tableNow, f.nullable = false → ∃ p ∈ Spec.fileOld, matchesField .fieldId p f = true)
    ∧ (∀ f ∈ Spec.tableNow, ∀ p ∈ Spec.fileOld, matchesField .fieldId p f = true →
        ∀ f' ∈ Spec.tableNow, f'.name = p.name → f' = f)
    ∧ (∀ f ∈ Spec.tableNow, ∀ fs, f.ty = .struct fs → ∀ t ∈ fs.toList, ∃ s ∈ fs.toList, matchesField .fieldId s t = true)
    ∧ bound Spec.tableNow (.op 0 (.get (.col "a" 0) "x") (.get (.col "b" 1) "x"))
    ∧ rewrite (fun _ _ => false) (fun _ => none) .fieldId Spec.tableNow Spec.fileOld
        (.op 0 (.get (.col "a" 0) "x") (.get (.col "b" 1) "x"))
      = some (.op 0 (.get (.col "p" 1) "x")
          (.get (.evolve (.col "q" 0) (Spec.fileOld.getD 0 (.mk "" none none true (.leaf 0)))
            (Spec.tableNow.getD 1 (.mk "" none none true (.leaf 0)))) "x")) := by
  refine ⟨by decide, by decide, by decide, by decide, ?_, ⟨⟨_, rfl, rfl⟩, ⟨_, rfl, rfl⟩⟩, by rfl⟩
  intro f hf fs hfs t ht
  refine ⟨t, ht, ?_⟩
  simp only [Spec.tableNow, List.mem_cons, List.not_mem_nil, or_false] at hf
  rcases hf with rfl | rfl <;> simp only [Fld.ty, Ty.struct.injEq] at hfs <;> subst hfs <;>
    simp only [Flds.toList, List.mem_cons, List.not_mem_nil, or_false] at ht
  · subst ht; decide
  · rcases ht with rfl | rfl <;> decide

/-- By name: columns change places, one is added, one is widened. -/
example : (([.mk "a" none none true (.leaf 2), .mk "b" none none true (.leaf 1), .mk "c" none none true (.leaf 1)] :
      List Fld).map Fld.name).Nodup
    ∧ bound [.mk "a" none none true (.leaf 2), .mk "b" none none true (.leaf 1), .mk "c" none none true (.leaf 1)]
        (.op 0 (.col "a" 0) (.op 1 (.col "b" 1) (.col "c" 2)))
    ∧ rewrite (fun a b => decide (a = 1 ∧ b = 2)) (fun _ => none) .name
        [.mk "a" none none true (.leaf 2), .mk "b" none none true (.leaf 1), .mk "c" none none true (.leaf 1)]
        [.mk "c" none none true (.leaf 1), .mk "a" none none false (.leaf 1)]
        (.op 0 (.col "a" 0) (.op 1 (.col "b" 1) (.col "c" 2)))
      = some (.op 0 (.evolve (.col "a" 1) (.mk "a" none none false (.leaf 1)) (.mk "a" none none true (.leaf 2)))
          (.op 1 (.lit (.leaf 1) none) (.col "c" 0))) := by
  refine ⟨by decide, ⟨⟨_, rfl, rfl⟩, ⟨_, rfl, rfl⟩, ⟨_, rfl, rfl⟩⟩, by rfl⟩

/-- A required bigint that the file does not have is read as 0. -/
example : rewrite (fun _ _ => false) (fun _ => some 0) .name [.mk "a" none none true (.leaf 1), .mk "n" none none false (.leaf 2)]
    [.mk "a" none none true (.leaf 1)] (.col "n" 1) = some (.lit (.leaf 2) (some 0)) := by rfl

end Verif.Evolve
