import Verif.Func.StructFieldProps

/-!
# C152: dropFields
-/

namespace Verif.Func.StructField

open Spec (Val row rowCols names wf wfCols distinct distinctCols)

/-- What is left of a field with the value at the path. -/
theorem drop_eq (n : String) (p : List String) (fs : List (String × Val)) : Spec.drop (n :: p) (.struct fs)
    = .struct ((fs.filter fun f => !(decide (f.1 = n) && p.isEmpty)).map fun f => if f.1 = n then (f.1, Spec.drop p f.2) else f) := by
  cases p with
  | nil =>
    rw [Spec.drop]
    congr 1
    have hf : (fs.filter fun f => !(decide (f.1 = n) && ([] : List String).isEmpty)) = fs.filter fun f => decide (f.1 ≠ n) := by
      refine List.filter_congr fun f _ => ?_
      by_cases h : f.1 = n <;> simp [h]
    rw [hf]
    refine Eq.symm ((List.map_congr_left (g := id) fun f hf => ?_).trans (List.map_id _))
    have : f.1 ≠ n := by simpa using (List.mem_filter.1 hf).2
    rw [if_neg this]
    rfl
  | cons m p =>
    rw [Spec.drop]
    congr 1
    have hf : (fs.filter fun f => !(decide (f.1 = n) && (m :: p).isEmpty)) = fs :=
      List.filter_eq_self.2 fun f _ => by simp
    rw [hf]
    refine List.map_congr_left fun f _ => ?_
    by_cases h : f.1 = n
    · rw [if_pos h, if_pos h, h]
    · rw [if_neg h, if_neg h]

theorem drop_null (p : List String) : Spec.drop p .null = .null := by
  unfold Spec.drop
  split <;> first | rfl | contradiction

/-- The new field for a column. -/
def dropOne (n : String) (p : List String) (f : Fld) : Option Fld :=
  if f.name = n then (dropTy p f.ty).map fun u => ⟨f.name, f.nullable, u⟩ else some f

theorem dropTy_struct {n : String} {p : List String} {valid : List Bool} {cs : Cols} {t : Ty}
    (h : dropTy (n :: p) (Arr.struct valid cs).type = some t) :
    ∃ out, collect (((cs.toList.filter fun c => !(decide (c.name = n) && p.isEmpty)).map Col.fld).map (dropOne n p)) = some out
      ∧ out ≠ [] ∧ t = .struct (.ofList out) := by
  rw [Arr.type, dropTy, Ty.asStruct, Option.bind_some, types_toList, List.filter_map] at h
  obtain ⟨out, ho, h⟩ := Option.bind_eq_some_iff.1 h
  refine ⟨out, ho, ?_⟩
  split at h
  · cases h
  · next hne =>
    cases h
    exact ⟨fun e => hne (by rw [e]; rfl), rfl⟩

/-- The type stays the same only if there is nothing at the path. -/
theorem drop_noop : ∀ (p : List String) (a : Arr), dropTy p a.type = some a.type → ∀ i, Spec.drop p (row a i) = row a i
  | [], a, h, i => by
    rw [dropTy] at h
    cases h
  | n :: p, .leaf t rows, h, i => by
    rw [Arr.type, dropTy] at h
    cases h
  | n :: p, .struct valid cs, h, i => by
    obtain ⟨out, ho, -, ht⟩ := dropTy_struct h
    rw [Arr.type, types_eq] at ht
    have hout : out = cs.toList.map Col.fld := by
      injection ht with ht
      have := congrArg Flds.toList ht
      rw [flds_toList_ofList, flds_toList_ofList] at this
      exact this.symm
    have hlen : (cs.toList.filter fun c => !(decide (c.name = n) && p.isEmpty)) = cs.toList := by
      refine List.filter_eq_self.2 ?_
      have hn := collect_names (nm := fun _ => "") (nm' := fun _ : Fld => "") ho (fun _ _ _ _ => rfl)
      have hl : (cs.toList.filter fun c => !(decide (c.name = n) && p.isEmpty)).length = cs.toList.length := by
        have := congrArg List.length hn
        simp only [List.length_map] at this
        rw [hout, List.length_map] at this
        exact this.symm
      exact List.length_filter_eq_length_iff.1 hl
    rw [hlen, hout] at ho
    have hone : ∀ c ∈ cs.toList, dropOne n p c.fld = some c.fld := by
      have gen : ∀ l : List Col, collect ((l.map Col.fld).map (dropOne n p)) = some (l.map Col.fld) →
          ∀ c ∈ l, dropOne n p c.fld = some c.fld := by
        intro l
        induction l with
        | nil => intro _ c hc; cases hc
        | cons x l ih =>
          intro h c hc
          rw [List.map_cons, List.map_cons] at h
          obtain ⟨y, ys, hy, hys, e⟩ := collect_cons h
          injection e with e1 e2
          subst e1
          subst e2
          rcases List.mem_cons.1 hc with rfl | hc
          · exact hy
          · exact ih hys c hc
      exact gen _ ho
    rw [row]
    split
    · rw [rowCols_eq, drop_eq, List.filter_map]
      congr 1
      have : (cs.toList.filter ((fun f : String × Val => !(decide (f.1 = n) && p.isEmpty)) ∘ fun c => (c.name, row c.arr i)))
          = cs.toList := hlen
      rw [this, List.map_map]
      refine List.map_congr_left fun c hc => ?_
      by_cases hcn : c.name = n
      · have h1 := hone c hc
        unfold dropOne at h1
        rw [if_pos (show c.fld.name = n from hcn)] at h1
        obtain ⟨u, hu, e⟩ := Option.map_eq_some_iff.1 h1
        have hu' : u = c.arr.type := congrArg Fld.ty e
        rw [hu'] at hu
        have := drop_noop p c.arr hu i
        simp only [Function.comp_apply, if_pos hcn]
        rw [this]
      · simp only [Function.comp_apply, if_neg hcn]
    · exact drop_null _

/-- Dropping succeeds whenever the type has a result, and the rows of the result are the rows without the field. -/
theorem drop_spec : ∀ (p : List String) (a : Arr) (t : Ty), wf a → distinct a → dropTy p a.type = some t →
    ∃ out, dropField p a = some out ∧ out.type = t ∧ out.valid = a.valid ∧ ∀ i, row out i = Spec.drop p (row a i)
  | [], a, t, _, _, h => by
    rw [dropTy] at h
    cases h
  | n :: p, .leaf _ rows, t, _, _, h => by
    rw [Arr.type, dropTy] at h
    cases h
  | n :: p, .struct valid cs, t, hw, hd, h => by
    rw [wf] at hw
    rw [distinct] at hd
    have hwm := fun c hc => wfCols_mem hw c hc
    have hdm := fun c hc => distinctCols_mem hd.2 c hc
    have hself := byName_self (show (cs.toList.map Col.name).Nodup from hd.1)
    have h0 := h
    obtain ⟨out, ho, hne, rfl⟩ := dropTy_struct h
    have gen : ∀ (l : List Col) (out : List Fld), (∀ c ∈ l, c ∈ cs.toList) →
        collect ((l.map Col.fld).map (dropOne n p)) = some out →
        ∃ l' : List Col, collect (out.map fun f => (byName cs.toList f.name).bind fun c =>
              if f.ty ≠ c.type then dropField p c else some c) = some (l'.map Col.arr)
          ∧ out = l'.map Col.fld ∧ (∀ c ∈ l', fits valid c.fld c.arr = true)
          ∧ ∀ i, (l'.map fun c => (c.name, row c.arr i))
            = l.map fun c => if c.name = n then (c.name, Spec.drop p (row c.arr i)) else (c.name, row c.arr i) := by
      intro l
      induction l with
      | nil =>
        intro out _ h
        cases h
        exact ⟨[], rfl, rfl, (fun c hc => nomatch hc), fun _ => rfl⟩
      | cons x l ih =>
        intro out hl h
        rw [List.map_cons, List.map_cons] at h
        obtain ⟨y, ys, hy, hys, rfl⟩ := collect_cons h
        obtain ⟨l', h1, h2, h3, h4⟩ := ih ys (fun c hc => hl c (List.mem_cons_of_mem _ hc)) hys
        have hx := hl x List.mem_cons_self
        obtain ⟨w1, w2, w3⟩ := hwm x hx
        have hcol : ∃ b : Arr, ((byName cs.toList y.name).bind fun c => if y.ty ≠ c.type then dropField p c else some c) = some b
            ∧ y = (⟨x.name, x.nullable, b⟩ : Col).fld ∧ b.valid = x.arr.valid
            ∧ ∀ i, row b i = if x.name = n then Spec.drop p (row x.arr i) else row x.arr i := by
          unfold dropOne at hy
          by_cases hxn : x.name = n
          · rw [if_pos (show x.fld.name = n from hxn)] at hy
            obtain ⟨u, hu, rfl⟩ := Option.map_eq_some_iff.1 hy
            obtain ⟨b, hb, hbt, hbv, hbr⟩ := drop_spec p x.arr u w3 (hdm x hx) hu
            have hby : byName cs.toList x.fld.name = some x.arr := hself x hx
            dsimp only
            rw [hby, Option.bind_some]
            by_cases he : u = x.arr.type
            · refine ⟨x.arr, if_neg (fun c => c he), by rw [he]; rfl, rfl, fun i => ?_⟩
              rw [if_pos hxn]
              have hu' : dropTy p x.arr.type = some x.arr.type := by
                have : dropTy p x.arr.type = some u := hu
                rw [this, he]
              exact (drop_noop p x.arr hu' i).symm
            · refine ⟨b, (if_pos he).trans hb, by rw [← hbt]; rfl, hbv, fun i => ?_⟩
              rw [if_pos hxn]
              exact hbr i
          · rw [if_neg (show ¬x.fld.name = n from hxn)] at hy
            cases hy
            have hby : byName cs.toList x.fld.name = some x.arr := hself x hx
            rw [hby, Option.bind_some]
            exact ⟨x.arr, if_neg (fun c => c rfl), rfl, rfl, fun i => by rw [if_neg hxn]⟩
        obtain ⟨b, hb, hyb, hbv, hbr⟩ := hcol
        refine ⟨⟨x.name, x.nullable, b⟩ :: l', ?_, ?_, ?_, fun i => ?_⟩
        · rw [List.map_cons, hb, collect, h1]
          rfl
        · rw [List.map_cons, ← hyb, h2]
        · intro c hc
          rcases List.mem_cons.1 hc with rfl | hc
          · exact fits_of rfl (by dsimp only; rw [hbv]; exact w1) (fun e => by dsimp only; rw [hbv]; exact w2 e)
          · exact h3 c hc
        · rw [List.map_cons, List.map_cons, h4 i]
          congr 1
          dsimp only
          rw [hbr i]
          by_cases hxn : x.name = n <;> simp [hxn]
    obtain ⟨l', h1, h2, h3, h4⟩ := gen _ out (fun c hc => (List.mem_filter.1 hc).1) ho
    refine ⟨.struct valid (.ofList l'), ?_, ?_, rfl, fun i => ?_⟩
    · rw [dropField]
      simp only [Arr.asStruct, Option.bind_some]
      rw [h0, Option.bind_some]
      simp only [Ty.asStruct, Option.bind_some, flds_toList_ofList]
      rw [h1, Option.bind_some, h2, tryNew, List.zip_map', if_pos]
      · rw [List.map_map]
        congr 3
        exact List.map_id _
      · rw [List.all_map, List.all_eq_true]
        exact h3
    · rw [Arr.type, types_eq, cols_toList_ofList, h2]
    · rw [row_struct, row]
      split
      · rw [rowCols_eq, drop_eq, List.filter_map, List.map_map, h4 i]
        rfl
      · exact (drop_null _).symm

/-- A call that is accepted gives the rows without the field at the path. -/
theorem C152_rows {p : List String} {a out : Arr} (columns : wf a) (unique : distinct a) (accepted : dropField p a = some out) :
    out.valid = a.valid ∧ ∀ i, row out i = Spec.drop p (row a i) := by
  have ht : ∃ t, dropTy p a.type = some t := by
    cases p with
    | nil =>
      rw [dropField] at accepted
      cases accepted
    | cons n p =>
      rw [dropField] at accepted
      obtain ⟨s, -, accepted⟩ := Option.bind_eq_some_iff.1 accepted
      obtain ⟨t, ht, -⟩ := Option.bind_eq_some_iff.1 accepted
      exact ⟨t, ht⟩
  obtain ⟨t, ht⟩ := ht
  obtain ⟨out', h1, -, h3, h4⟩ := drop_spec p a t columns unique ht
  rw [accepted] at h1
  cases h1
  exact ⟨h3, h4⟩

/-- What is refused: an empty path, a path through a value that is not a struct, and dropping the only field. -/
def Spec.refused : List String → Ty → Prop
  | [], _ => True
  | _ :: _, .leaf _ => True
  | [n], .struct fs => ∀ f ∈ fs.toList, f.name = n
  | n :: m :: p, .struct fs => fs.toList = [] ∨ ∃ f ∈ fs.toList, f.name = n ∧ Spec.refused (m :: p) f.ty

theorem collect_none {α β : Type} {h : α → Option β} {l : List α} : collect (l.map h) = none ↔ ∃ x ∈ l, h x = none := by
  induction l with
  | nil => simp [collect]
  | cons x l ih =>
    rw [List.map_cons]
    cases hx : h x with
    | none => simp [collect, hx]
    | some y => simp [collect, hx, ih]

theorem dropTy_none : ∀ (p : List String) (t : Ty), dropTy p t = none ↔ Spec.refused p t
  | [], t => by simp [dropTy, Spec.refused]
  | n :: p, .leaf t => by simp [dropTy, Ty.asStruct, Spec.refused]
  | [n], .struct fs => by
    rw [dropTy, Ty.asStruct, Option.bind_some, Spec.refused]
    have hk : ∀ f ∈ fs.toList.filter (fun f => !(decide (f.name = n) && ([] : List String).isEmpty)),
        (if f.name = n then (dropTy [] f.ty).map fun u => (⟨f.name, f.nullable, u⟩ : Fld) else some f) = some f := by
      intro f hf
      have : f.name ≠ n := by simpa using (List.mem_filter.1 hf).2
      rw [if_neg this]
    rw [collect_map (k := fun f => f) hk, Option.bind_some, List.map_id']
    split
    · next he =>
      simp only [true_iff]
      intro f hf
      have := List.filter_eq_nil_iff.1 (List.isEmpty_iff.1 he) f hf
      simpa using this
    · next he =>
      simp only [reduceCtorEq, false_iff]
      intro h
      refine he (List.isEmpty_iff.2 (List.filter_eq_nil_iff.2 fun f hf => ?_))
      simp [h f hf]
  | n :: m :: p, .struct fs => by
    rw [dropTy, Ty.asStruct, Option.bind_some, Spec.refused]
    have hf : (fs.toList.filter fun f => !(decide (f.name = n) && (m :: p).isEmpty)) = fs.toList :=
      List.filter_eq_self.2 fun f _ => by simp
    rw [hf]
    cases hc : collect (fs.toList.map fun f =>
        if f.name = n then (dropTy (m :: p) f.ty).map fun u => (⟨f.name, f.nullable, u⟩ : Fld) else some f) with
    | none =>
      simp only [Option.bind_none, true_iff]
      obtain ⟨f, hm, hx⟩ := collect_none.1 hc
      split at hx
      · next hn => exact .inr ⟨f, hm, hn, (dropTy_none (m :: p) f.ty).1 (Option.map_eq_none_iff.1 hx)⟩
      · cases hx
    | some out =>
      have hl : out.length = fs.toList.length := by
        have := congrArg List.length (collect_names (nm := fun _ => "") (nm' := fun _ : Fld => "") hc (fun _ _ _ _ => rfl))
        simpa using this
      rw [Option.bind_some]
      have hno : ¬∃ f ∈ fs.toList, f.name = n ∧ Spec.refused (m :: p) f.ty := by
        rintro ⟨f, hm, hn, hr⟩
        have : collect (fs.toList.map fun f =>
            if f.name = n then (dropTy (m :: p) f.ty).map fun u => (⟨f.name, f.nullable, u⟩ : Fld) else some f) = none :=
          collect_none.2 ⟨f, hm, by rw [if_pos hn, (dropTy_none (m :: p) f.ty).2 hr]; rfl⟩
        rw [hc] at this
        cases this
      split
      · next he =>
        simp only [true_iff]
        left
        rw [List.isEmpty_iff.1 he] at hl
        exact List.length_eq_zero_iff.1 hl.symm
      · next he =>
        simp only [reduceCtorEq, false_iff]
        rintro (h | h)
        · rw [h, List.length_nil] at hl
          exact he (List.isEmpty_iff.2 (List.length_eq_zero_iff.1 hl))
        · exact hno h

/-- Nothing else is refused. -/
theorem C152_refused {p : List String} {a : Arr} (columns : wf a) (unique : distinct a) :
    dropField p a = none ↔ Spec.refused p a.type := by
  rw [← dropTy_none]
  constructor
  · intro h
    cases ht : dropTy p a.type with
    | none => rfl
    | some t =>
      obtain ⟨out, h1, -⟩ := drop_spec p a t columns unique ht
      rw [h] at h1
      cases h1
  · intro h
    cases p with
    | nil => rfl
    | cons n p =>
      rw [dropField, h]
      cases a.asStruct <;> rfl

example : (dropField ["a", "b"] Spec.sample) = none := by rfl

/-- The field `y` of an inner struct is dropped, also where the outer struct is NULL; `z` is not there. -/
example :
    let a : Arr := .struct [true, false] (.cons "a" false (.struct [true, true]
      (.cons "x" true (.leaf 0 [none, some 3]) (.cons "y" true (.leaf 1 [some 5, some 6]) .nil))) (.cons "y" true (.leaf 0 [some 2, some 4]) .nil))
    wf a ∧ distinct a
      ∧ (dropField ["a", "y"] a).map (fun b => (row b 0, row b 1)) = some (.struct [("a", .struct [("x", .null)]), ("y", .num 2)], .null)
      ∧ (dropField ["a", "z"] a).map (fun b => row b 0) = some (row a 0) := by
  refine ⟨?_, ?_, rfl, rfl⟩
  · simp only [wf, wfCols]
    refine ⟨⟨rfl, fun _ i hi => ?_, ⟨rfl, (fun e => nomatch e), trivial⟩, ⟨rfl, (fun e => nomatch e), trivial⟩, trivial⟩,
      ⟨rfl, (fun e => nomatch e), trivial⟩, trivial⟩
    match i, hi with
    | 0, _ => simp [row]
    | 1, _ => simp [row]
    | i + 2, hi => simp at hi
  · simp [distinct, distinctCols, names, Cols.toList]

/-- A name in another case is ignored. -/
theorem C152_case : (dropField ["C"] Spec.sample).map (fun b => row b 0) = some (row Spec.sample 0) := by rfl

end Verif.Func.StructField
