import Verif.Evolve.Cast
import Mathlib.Data.List.Basic

/-! C141: reading files with an older schema converts every nested value in its place. -/

namespace Verif.Evolve

/-- A value: NULL, a value without parts, a list, a struct. -/
inductive Spec.Val where
  | null
  | leaf (x : Int)
  | list (vs : List Spec.Val)
  | struct (vs : List Spec.Val)

open Spec (Val)

mutual
/-- The rows of an array. -/
def Spec.rows : Arr → List Val
  | .leaf _ rs => rs.map fun r : Option Int => r.elim .null .leaf
  | .list _ rs values =>
    rs.map fun r : Option (Nat × Nat) => r.elim .null fun p => .list (((Spec.rows values).drop p.1).take p.2)
  | .struct _ valid columns =>
    (List.range valid.length).map fun i : Nat =>
      if valid.getD i false then .struct ((Spec.allRows columns).map fun c : List Val => c.getD i .null) else .null
/-- The rows of each column. -/
def Spec.allRows : Arrs → List (List Val)
  | .nil => []
  | .cons a rest => Spec.rows a :: Spec.allRows rest
end

/-- The conversion of a value without parts of type `s`. -/
def Spec.convLeaf (g : Nat → Nat → Int → Int) (b : Nat) : Ty → Val → Val
  | .leaf a, .leaf x => .leaf (g a b x)
  | _, _ => .null

/-- The element type and the elements. -/
def Spec.elements : Ty → Val → Option (Ty × List Val)
  | .list e, .list vs => some (e.ty, vs)
  | _, _ => none

/-- The fields and their values. -/
def Spec.members : Ty → Val → Option (List Fld × List Val)
  | .struct sfs, .struct vs => some (sfs.toList, vs)
  | _, _ => none

mutual
/-- The conversion of one value of type `s` to the type that comes first; `g` converts values without
parts. -/
def Spec.conv (g : Nat → Nat → Int → Int) (m : Matching) : Ty → Ty → Val → Val
  | .leaf b, s, v => if s = .leaf b then v else Spec.convLeaf g b s v
  | .list (.mk n p i nl t), s, v =>
    if s = .list (.mk n p i nl t) then v
    else (Spec.elements s v).elim .null fun x => .list (x.2.map fun y : Val => Spec.conv g m t x.1 y)
  | .struct tfs, s, v =>
    if s = .struct tfs then v
    else (Spec.members s v).elim .null fun x => .struct (Spec.convFields g m x.1 x.2 tfs)
/-- The conversion of the fields of a struct. -/
def Spec.convFields (g : Nat → Nat → Int → Int) (m : Matching) (sources : List Fld) (vs : List Val) :
    Flds → List Val
  | .nil => []
  | .cons (.mk tn tp ti tnl t) rest =>
    (match find m sources (.mk tn tp ti tnl t) with
      | some i =>
        match sources[i]? with
        | some s => Spec.conv g m t s.ty (vs.getD i .null)
        | none => .null
      | none => .null) :: Spec.convFields g m sources vs rest
end

mutual
/-- An array is well formed if its children have the types of its fields and the type `Null` has only
NULLs. -/
def Spec.ok : Arr → Prop
  | .leaf n rs => n = 0 → ∀ r ∈ rs, r = none
  | .list e _ values => values.ty = e.ty ∧ Spec.ok values
  | .struct fs _ columns => Spec.okAll fs columns
def Spec.okAll : Flds → Arrs → Prop
  | .nil, .nil => True
  | .cons f fs, .cons a rest => a.ty = f.ty ∧ Spec.ok a ∧ Spec.okAll fs rest
  | _, _ => False
end

open Spec

variable {leafCan : Nat → Nat → Bool} {leafCast : Nat → Nat → Int → Option Int} {m : Matching}
  {g : Nat → Nat → Int → Int}

theorem conv_null (t s : Ty) : conv g m t s .null = .null := by
  cases t with
  | leaf b =>
    rw [conv]
    split
    · rfl
    · cases s <;> rfl
  | list e =>
    cases e
    rw [conv]
    split
    · rfl
    · cases s <;> rfl
  | struct fs =>
    rw [conv]
    split
    · rfl
    · cases s <;> rfl

theorem conv_self (t : Ty) (v : Val) : conv g m t t v = v := by
  cases t with
  | leaf b => rw [conv, if_pos rfl]
  | list e => cases e; rw [conv, if_pos rfl]
  | struct fs => rw [conv, if_pos rfl]

theorem map_conv_self (t : Ty) (l : List Val) : l.map (conv g m t t) = l := by
  have : (conv g m t t : Val → Val) = id := funext (conv_self t)
  rw [this, List.map_id]

theorem getD_map {f : Val → Val} (h : f .null = .null) (l : List Val) (i : Nat) :
    (l.map f).getD i .null = f (l.getD i .null) := by
  rw [List.getD_eq_getElem?_getD, List.getD_eq_getElem?_getD, List.getElem?_map]
  cases l[i]? with
  | none => simp [h]
  | some x => rfl

theorem allRows_eq : ∀ cs : Arrs, allRows cs = cs.toList.map fun c : Arr => rows c
  | .nil => by rw [allRows, Arrs.toList]; rfl
  | .cons a rest => by rw [allRows, Arrs.toList, List.map_cons, allRows_eq rest]

theorem rows_length : ∀ a : Arr, (rows a).length = a.len
  | .leaf _ _ => by rw [rows, Arr.len, List.length_map]
  | .list _ _ _ => by rw [rows, Arr.len, List.length_map]
  | .struct _ _ _ => by rw [rows, Arr.len, List.length_map, List.length_range]

theorem nullArr_ty (n : Nat) : ∀ t : Ty, (nullArr n t).ty = t
  | .leaf _ => by rw [nullArr, Arr.ty]
  | .list (.mk _ _ _ _ _) => by rw [nullArr, Arr.ty]
  | .struct _ => by rw [nullArr, Arr.ty]

theorem nullArr_rows (n : Nat) : ∀ t : Ty, rows (nullArr n t) = List.replicate n .null
  | .leaf _ => by rw [nullArr, rows, List.map_replicate]; rfl
  | .list (.mk _ _ _ _ _) => by rw [nullArr, rows, List.map_replicate]; rfl
  | .struct fs => by
    rw [nullArr, rows, List.length_replicate]
    apply List.ext_getElem
    · simp
    · intro i h1 h2
      simp only [List.length_map, List.length_range] at h1
      simp [h1]

theorem okAll_get : ∀ (fs : Flds) (cs : Arrs), okAll fs cs → ∀ (i : Nat) (c : Arr), cs.toList[i]? = some c →
    ∃ s : Fld, fs.toList[i]? = some s ∧ c.ty = s.ty ∧ ok c
  | .nil, .nil, _, i, c, hc => by simp [Arrs.toList] at hc
  | .cons f fs, .cons a rest, h, i, c, hc => by
    rw [okAll] at h
    rw [Arrs.toList] at hc
    rw [Flds.toList]
    cases i with
    | zero =>
      simp only [List.getElem?_cons_zero, Option.some.injEq] at hc ⊢
      subst hc
      exact ⟨f, rfl, h.1, h.2.1⟩
    | succ i =>
      simp only [List.getElem?_cons_succ] at hc ⊢
      exact okAll_get fs rest h.2.2 i c hc
  | .nil, .cons _ _, h, _, _, _ => by simp [okAll] at h
  | .cons _ _, .nil, h, _, _, _ => by simp [okAll] at h

theorem castLeaf_rows (hg : ∀ a b x y, leafCast a b x = some y → y = g a b x) (a b : Nat) :
    ∀ (l r : List (Option Int)), castLeaf leafCast a b l = some r →
      r = l.map fun o : Option Int => o.map (g a b)
  | [], r, h => by simp only [castLeaf, Option.some.injEq] at h; subst h; rfl
  | none :: l, r, h => by
    rw [castLeaf, Option.map_eq_some_iff] at h
    obtain ⟨r', h', rfl⟩ := h
    rw [castLeaf_rows hg a b l r' h']; rfl
  | some x :: l, r, h => by
    rw [castLeaf] at h
    cases hx : leafCast a b x with
    | none => rw [hx] at h; cases h
    | some y =>
      rw [hx] at h
      dsimp only at h
      rw [Option.map_eq_some_iff] at h
      obtain ⟨r', h', rfl⟩ := h
      rw [castLeaf_rows hg a b l r' h', hg a b x y hx]; rfl

theorem all_null {a : Arr} (h : a.nullCount = a.len) : rows a = List.replicate a.len .null := by
  cases a with
  | leaf t rs =>
    simp only [Arr.nullCount, Arr.len] at h ⊢
    rw [List.countP_eq_length] at h
    rw [rows, List.eq_replicate_iff]
    refine ⟨by simp, fun v hv => ?_⟩
    obtain ⟨o, ho, rfl⟩ := List.mem_map.1 hv
    have := h o ho
    cases o with
    | none => rfl
    | some _ => cases this
  | list e rs vs =>
    simp only [Arr.nullCount, Arr.len] at h ⊢
    rw [List.countP_eq_length] at h
    rw [rows, List.eq_replicate_iff]
    refine ⟨by simp, fun v hv => ?_⟩
    obtain ⟨o, ho, rfl⟩ := List.mem_map.1 hv
    have := h o ho
    cases o with
    | none => rfl
    | some _ => cases this
  | struct fs valid cs =>
    simp only [Arr.nullCount, Arr.len] at h ⊢
    rw [List.countP_eq_length] at h
    rw [rows, List.eq_replicate_iff]
    refine ⟨by simp, fun v hv => ?_⟩
    obtain ⟨i, hi, rfl⟩ := List.mem_map.1 hv
    have hi' : i < valid.length := by simpa using hi
    have := h valid[i] (List.getElem_mem hi')
    rw [List.getD_eq_getElem?_getD, List.getElem?_eq_getElem hi']
    simp at this
    simp [this]

mutual
theorem cast_rows (hg : ∀ a b x y, leafCast a b x = some y → y = g a b x) : ∀ (t : Ty) (a b : Arr), ok a →
    castArr leafCan leafCast m t a = some b → b.ty = t ∧ rows b = (rows a).map (conv g m t a.ty)
  | .leaf t, a, b, _, h => by
    rw [castArr] at h
    by_cases he : a.ty = .leaf t
    · rw [if_pos he, Option.some.injEq] at h
      subst h
      rw [he, map_conv_self]
      exact ⟨rfl, rfl⟩
    · rw [if_neg he] at h
      cases a with
      | leaf n rs =>
        simp only [Arr.asLeaf, Option.bind_some] at h
        rw [Option.map_eq_some_iff] at h
        obtain ⟨r, hr, rfl⟩ := h
        refine ⟨by rw [Arr.ty], ?_⟩
        rw [castLeaf_rows hg n t rs r hr, rows, rows, List.map_map, List.map_map]
        apply List.map_congr_left
        intro o _
        simp only [Arr.ty] at he
        cases o with
        | none => exact (conv_null _ _).symm
        | some x =>
          simp only [Function.comp_apply, Option.map_some, Option.elim_some, Arr.ty]
          rw [conv, if_neg he]; rfl
      | list _ _ _ => cases h
      | struct _ _ _ => cases h
  | .list (.mk n p i nl t), a, b, hok, h => by
    rw [castArr] at h
    by_cases he : a.ty = .list (.mk n p i nl t)
    · rw [if_pos he, Option.some.injEq] at h
      subst h
      rw [he, map_conv_self]
      exact ⟨rfl, rfl⟩
    · rw [if_neg he] at h
      cases a with
      | leaf _ _ => cases h
      | struct _ _ _ => cases h
      | list e rs vs =>
        simp only [Arr.asList, Option.bind_some] at h
        rw [Option.map_eq_some_iff] at h
        obtain ⟨v, hv, rfl⟩ := h
        rw [ok] at hok
        have ih := cast_rows hg t vs v hok.2 hv
        refine ⟨by rw [Arr.ty], ?_⟩
        rw [rows, rows, List.map_map, ih.2, hok.1]
        apply List.map_congr_left
        intro o _
        simp only [Arr.ty] at he
        cases o with
        | none => exact (conv_null _ _).symm
        | some q =>
          simp only [Function.comp_apply, Option.elim_some, Arr.ty]
          rw [conv, if_neg he]
          simp only [elements, Option.elim_some, List.map_drop, List.map_take]
  | .struct tfs, a, b, hok, h => by
    rw [castArr] at h
    by_cases he : a.ty = .struct tfs
    · rw [if_pos he, Option.some.injEq] at h
      subst h
      rw [he, map_conv_self]
      exact ⟨rfl, rfl⟩
    · rw [if_neg he] at h
      by_cases hn : a.ty = .leaf 0 ∨ (a.len ≠ 0 ∧ a.nullCount = a.len)
      · rw [if_pos hn, Option.some.injEq] at h
        subst h
        refine ⟨nullArr_ty _ _, ?_⟩
        have hr : rows a = List.replicate a.len .null := by
          rcases hn with h0 | h0
          · cases a with
            | leaf k rs =>
              apply all_null
              simp only [Arr.ty, Ty.leaf.injEq] at h0
              subst h0
              simp only [Arr.nullCount, Arr.len]
              rw [List.countP_eq_length]
              intro r hr
              rw [ok] at hok
              rw [hok rfl r hr]; rfl
            | list _ _ _ => simp [Arr.ty] at h0
            | struct _ _ _ => simp [Arr.ty] at h0
          · exact all_null h0.2
        rw [nullArr_rows, hr, List.map_replicate, conv_null]
      · rw [if_neg hn] at h
        cases a with
        | leaf _ _ => cases h
        | list _ _ _ => cases h
        | struct sfs valid cs =>
          simp only [Arr.asStruct, Option.bind_some] at h
          split at h
          · rw [Option.map_eq_some_iff] at h
            obtain ⟨ds, hds, rfl⟩ := h
            rw [ok] at hok
            refine ⟨by rw [Arr.ty], ?_⟩
            rw [rows, rows, List.map_map]
            apply List.map_congr_left
            intro i _
            simp only [Function.comp_apply, Arr.ty] at he ⊢
            by_cases hv : valid.getD i false = true
            · rw [if_pos hv, if_pos hv, conv, if_neg he]
              simp only [members, Option.elim_some]
              congr 1
              rw [cast_columns hg tfs sfs cs valid.length ds hok hds i, allRows_eq]
            · rw [if_neg hv, if_neg hv, conv_null]
          · cases h
theorem cast_columns (hg : ∀ a b x y, leafCast a b x = some y → y = g a b x) : ∀ (tfs : Flds) (sfs : Flds)
    (cs : Arrs) (n : Nat) (ds : Arrs), okAll sfs cs →
    castColumns leafCan leafCast m sfs.toList cs.toList n tfs = some ds → ∀ i : Nat,
    (allRows ds).map (fun c : List Val => c.getD i .null)
      = convFields g m sfs.toList ((cs.toList.map fun c : Arr => rows c).map fun c : List Val => c.getD i .null) tfs
  | .nil, sfs, cs, n, ds, _, h, i => by
    rw [castColumns, Option.some.injEq] at h
    subst h
    rw [allRows, convFields]; rfl
  | .cons (.mk tn tp ti tnl t) rest, sfs, cs, n, ds, hok, h, i => by
    rw [castColumns] at h
    rw [convFields]
    cases hf : find m sfs.toList (.mk tn tp ti tnl t) with
    | none =>
      rw [hf] at h
      dsimp only at h ⊢
      cases hr : castColumns leafCan leafCast m sfs.toList cs.toList n rest with
      | none => rw [hr] at h; cases h
      | some ds' =>
        rw [hr] at h
        simp only [Option.some.injEq] at h
        subst h
        rw [allRows, List.map_cons, cast_columns hg rest sfs cs n ds' hok hr i, nullArr_rows]
        congr 1
        rw [List.getD_eq_getElem?_getD, List.getElem?_replicate]
        split <;> rfl
    | some j =>
      rw [hf] at h
      dsimp only at h ⊢
      cases hc : cs.toList[j]? with
      | none => rw [hc] at h; cases h
      | some c =>
        rw [hc] at h
        dsimp only at h
        cases hd : castArr leafCan leafCast m t c with
        | none => rw [hd] at h; cases h
        | some d =>
          rw [hd] at h
          dsimp only at h
          cases hr : castColumns leafCan leafCast m sfs.toList cs.toList n rest with
          | none => rw [hr] at h; cases h
          | some ds' =>
            rw [hr] at h
            simp only [Option.some.injEq] at h
            subst h
            obtain ⟨s, hs, hty, hokc⟩ := okAll_get sfs cs hok j c hc
            rw [allRows, List.map_cons, cast_columns hg rest sfs cs n ds' hok hr i, hs]
            congr 1
            dsimp only
            rw [(cast_rows hg t c d hokc hd).2, getD_map (conv_null _ _), hty]
            congr 1
            rw [List.getD_eq_getElem?_getD (l := List.map _ _), List.getElem?_map, List.getElem?_map, hc]
            rfl
end

/-! ### NULLs -/

mutual
/-- A value that is not NULL has the given type, and no NULL inside where the type forbids it. -/
def Spec.fits : Ty → Val → Prop
  | .leaf n, v => n ≠ 0 ∧ ∃ x, v = .leaf x
  | .list (.mk _ _ _ nl t), v => ∃ vs, v = .list vs ∧ ∀ x ∈ vs, (x = .null ∧ nl = true) ∨ Spec.fits t x
  | .struct fs, v => ∃ vs, v = .struct vs ∧ Spec.fitsAll fs vs
def Spec.fitsAll : Flds → List Val → Prop
  | .nil, vs => vs = []
  | .cons (.mk _ _ _ nl t) rest, vs =>
    ∃ x r, vs = x :: r ∧ ((x = .null ∧ nl = true) ∨ Spec.fits t x) ∧ Spec.fitsAll rest r
end

/-- The value may be stored in the field. -/
def Spec.fitsFld (f : Fld) (v : Val) : Prop := (v = .null ∧ f.nullable = true) ∨ Spec.fits f.ty v

theorem fitsAll_get : ∀ (fs : Flds) (vs : List Val), fitsAll fs vs → ∀ (i : Nat) (s : Fld),
    fs.toList[i]? = some s → fitsFld s (vs.getD i .null)
  | .nil, vs, _, i, s, h => by simp [Flds.toList] at h
  | .cons (.mk a b c nl t) rest, vs, hv, i, s, h => by
    rw [fitsAll] at hv
    obtain ⟨x, r, rfl, hx, hr⟩ := hv
    rw [Flds.toList] at h
    cases i with
    | zero =>
      simp only [List.getElem?_cons_zero, Option.some.injEq] at h
      subst h
      exact hx
    | succ i =>
      simp only [List.getElem?_cons_succ] at h
      exact fitsAll_get rest r hr i s h

/-- The part of the check that is common to all types. -/
theorem canCast_null {s t : Fld} (h : canCast leafCan m s t = true) :
    (s.ty = .leaf 0 → t.nullable = true) ∧ (s.ty ≠ .leaf 0 → s.nullable = true → t.nullable = true) := by
  obtain ⟨a, b, c, nl, t⟩ := t
  refine ⟨fun h0 => ?_, fun h0 hs => ?_⟩
  · cases t <;> rw [canCast, if_pos h0] at h <;> exact h
  · cases t <;> rw [canCast, if_neg h0] at h <;> cases nl <;> simp_all [Fld.nullable]

mutual
theorem conv_fits (h0 : ∀ a, leafCan a 0 = false) : ∀ (t : Fld) (s : Fld) (v : Val),
    canCast leafCan m s t = true → fitsFld s v → fitsFld t (conv g m t.ty s.ty v)
  | .mk n p i nl (.leaf b), s, v, h, hv => by
    have hc := canCast_null h
    rcases hv with ⟨rfl, hs⟩ | hv
    · left
      refine ⟨conv_null _ _, ?_⟩
      by_cases e : s.ty = .leaf 0
      · exact hc.1 e
      · exact hc.2 e hs
    · right
      by_cases e : s.ty = .leaf 0
      · rw [e, fits] at hv; exact absurd rfl hv.1
      · rw [canCast, if_neg e] at h
        split at h
        · cases h
        · cases ht : s.ty with
          | leaf a =>
            rw [ht] at h hv
            rw [fits] at hv
            obtain ⟨ha, x, rfl⟩ := hv
            simp only [Bool.or_eq_true, decide_eq_true_eq] at h
            have hb : b ≠ 0 := by
              rintro rfl
              rcases h with h | h
              · exact ha h
              · rw [h0] at h; cases h
            rw [Fld.ty, conv, fits]
            refine ⟨hb, ?_⟩
            split
            · exact ⟨x, rfl⟩
            · exact ⟨g a b x, rfl⟩
          | list _ => rw [ht] at h; cases h
          | struct _ => rw [ht] at h; cases h
  | .mk n p i nl (.list te), s, v, h, hv => by
    have hc := canCast_null h
    rcases hv with ⟨rfl, hs⟩ | hv
    · left
      refine ⟨conv_null _ _, ?_⟩
      by_cases e : s.ty = .leaf 0
      · exact hc.1 e
      · exact hc.2 e hs
    · right
      by_cases e : s.ty = .leaf 0
      · rw [e, fits] at hv; exact absurd rfl hv.1
      · rw [canCast, if_neg e] at h
        split at h
        · cases h
        · by_cases he : s.ty = .list te
          · rw [he] at hv ⊢
            rw [Fld.ty, conv_self]
            exact hv
          · rw [if_neg he] at h
            cases ht : s.ty with
            | leaf a => rw [ht] at h; cases h
            | struct _ => rw [ht] at h; cases h
            | list se =>
              rw [ht] at h hv he
              dsimp only at h
              have ih := fun (x : Val) => conv_fits h0 te se x h
              obtain ⟨a1, a2, a3, a4, a5⟩ := te
              obtain ⟨b1, b2, b3, b4, b5⟩ := se
              rw [fits] at hv
              obtain ⟨vs, rfl, hvs⟩ := hv
              rw [Fld.ty, conv, if_neg he, fits]
              simp only [elements, Option.elim_some]
              refine ⟨_, rfl, fun x hx => ?_⟩
              obtain ⟨y, hy, rfl⟩ := List.mem_map.1 hx
              exact ih y (hvs y hy)
  | .mk n p i nl (.struct tfs), s, v, h, hv => by
    have hc := canCast_null h
    rcases hv with ⟨rfl, hs⟩ | hv
    · left
      refine ⟨conv_null _ _, ?_⟩
      by_cases e : s.ty = .leaf 0
      · exact hc.1 e
      · exact hc.2 e hs
    · right
      by_cases e : s.ty = .leaf 0
      · rw [e, fits] at hv; exact absurd rfl hv.1
      · rw [canCast, if_neg e] at h
        split at h
        · cases h
        · by_cases he : s.ty = .struct tfs
          · rw [he] at hv ⊢
            rw [Fld.ty, conv_self]
            exact hv
          · rw [if_neg he] at h
            cases ht : s.ty with
            | leaf a => rw [ht] at h; cases h
            | list _ => rw [ht] at h; cases h
            | struct sfs =>
              rw [ht] at h hv he
              simp only [Bool.and_eq_true] at h
              rw [fits] at hv
              obtain ⟨vs, rfl, hvs⟩ := hv
              rw [Fld.ty, conv, if_neg he, fits]
              simp only [members, Option.elim_some]
              exact ⟨_, rfl, convFields_fits h0 tfs sfs vs h.2 hvs⟩
theorem convFields_fits (h0 : ∀ a, leafCan a 0 = false) : ∀ (tfs : Flds) (sfs : Flds) (vs : List Val),
    canCastFields leafCan m sfs.toList tfs = true → fitsAll sfs vs →
    fitsAll tfs (convFields g m sfs.toList vs tfs)
  | .nil, sfs, vs, _, _ => by rw [convFields, fitsAll]
  | .cons (.mk n p i nl t) rest, sfs, vs, h, hv => by
    rw [canCastFields, Bool.and_eq_true] at h
    rw [convFields, fitsAll]
    refine ⟨_, _, rfl, ?_, convFields_fits h0 rest sfs vs h.2 hv⟩
    have h1 := h.1
    cases hf : find m sfs.toList (.mk n p i nl t) with
    | none =>
      rw [hf] at h1
      exact Or.inl ⟨rfl, h1⟩
    | some j =>
      rw [hf] at h1
      dsimp only at h1 ⊢
      cases hs : sfs.toList[j]? with
      | none => rw [hs] at h1; cases h1
      | some s =>
        rw [hs] at h1
        exact conv_fits h0 (.mk n p i nl t) s _ h1 (fitsAll_get sfs vs hv j s hs)
end

/-! ### The claims -/

/-- The conversion of values without parts that `cast_with_options` makes. -/
def Spec.castOf (leafCast : Nat → Nat → Int → Option Int) (a b : Nat) (x : Int) : Int := (leafCast a b x).getD 0

/-- If a column of a file is cast without an error, the result has the type of the table and its rows are the
rows of the file, in the same order, each converted by itself. -/
theorem C141_rows {t : Ty} {a b : Arr} (wellFormed : ok a)
    (cast : castArr leafCan leafCast m t a = some b) :
    b.ty = t ∧ rows b = (rows a).map (conv (castOf leafCast) m t a.ty) :=
  cast_rows (fun a b x y h => by rw [castOf, h]; rfl) t a b wellFormed cast

/-- A NULL stays NULL. -/
theorem C141_null {t : Ty} {a b : Arr} (wellFormed : ok a) (cast : castArr leafCan leafCast m t a = some b)
    {i : Nat} (null : (rows a)[i]? = some .null) : (rows b)[i]? = some .null := by
  rw [(C141_rows wellFormed cast).2, List.getElem?_map, null]
  exact congrArg some (conv_null _ _)

/-- A list keeps its length, and its elements are converted in their places. -/
theorem C141_list {e e' : Fld} {a b : Arr} (wellFormed : ok a) (type : a.ty = .list e) (differ : e ≠ e')
    (cast : castArr leafCan leafCast m (.list e') a = some b) {i : Nat} {vs : List Val}
    (value : (rows a)[i]? = some (.list vs)) :
    (rows b)[i]? = some (.list (vs.map (conv (castOf leafCast) m e'.ty e.ty))) := by
  rw [(C141_rows wellFormed cast).2, List.getElem?_map, value, type]
  obtain ⟨n, p, j, nl, t⟩ := e'
  rw [Option.map_some, conv, if_neg (by simpa using differ)]
  rfl

theorem convFields_get (sources : List Fld) (vs : List Val) : ∀ (tfs : Flds) (k : Nat) (t : Fld),
    tfs.toList[k]? = some t → (convFields g m sources vs tfs)[k]? = some (match find m sources t with
      | some i =>
        match sources[i]? with
        | some s => conv g m t.ty s.ty (vs.getD i .null)
        | none => .null
      | none => .null)
  | .nil, k, t, h => by simp [Flds.toList] at h
  | .cons (.mk n p i nl u) rest, k, t, h => by
    rw [Flds.toList] at h
    rw [convFields]
    cases k with
    | zero =>
      simp only [List.getElem?_cons_zero, Option.some.injEq] at h
      subst h
      rfl
    | succ k =>
      simp only [List.getElem?_cons_succ] at h ⊢
      exact convFields_get sources vs rest k t h

/-- Each field of a struct of the table gets the converted value of the first field of the struct of the file
that matches it, and NULL if none does. -/
theorem C141_field {sfs tfs : Flds} {a b : Arr} (wellFormed : ok a) (type : a.ty = .struct sfs)
    (differ : sfs ≠ tfs) (cast : castArr leafCan leafCast m (.struct tfs) a = some b) {i : Nat} {vs : List Val}
    (value : (rows a)[i]? = some (.struct vs)) :
    ∃ us, (rows b)[i]? = some (.struct us) ∧ ∀ (k : Nat) (t : Fld), tfs.toList[k]? = some t →
      ((∀ s ∈ sfs.toList, matchesField m s t = false) → us[k]? = some .null)
      ∧ ∀ (j : Nat) (s : Fld), sfs.toList[j]? = some s → matchesField m s t = true →
          (∀ j' s', j' < j → sfs.toList[j']? = some s' → matchesField m s' t = false) →
          us[k]? = some (conv (castOf leafCast) m t.ty s.ty (vs.getD j .null)) := by
  rw [(C141_rows wellFormed cast).2, List.getElem?_map, value, type]
  rw [Option.map_some, conv, if_neg (by simpa using differ)]
  refine ⟨_, rfl, fun k t hk => ⟨fun hno => ?_, fun j s hj hm hfirst => ?_⟩⟩
  · rw [convFields_get _ _ _ _ _ hk]
    have : find m sfs.toList t = none := by
      unfold find
      rw [List.findIdx?_eq_none_iff]
      exact fun s hs => hno s hs
    rw [this]
  · rw [convFields_get _ _ _ _ _ hk]
    have hlt : j < sfs.toList.length := by
      rw [List.getElem?_eq_some_iff] at hj
      exact hj.1
    have : find m sfs.toList t = some j := by
      unfold find
      rw [List.findIdx?_eq_some_iff_getElem]
      refine ⟨hlt, ?_, fun j' hj' => ?_⟩
      · rw [List.getElem?_eq_getElem hlt, Option.some.injEq] at hj
        rw [hj]; exact hm
      · rw [hfirst j' _ hj' (List.getElem?_eq_getElem (by omega))]
        decide
    rw [this]
    dsimp only
    rw [hj]

/-- A file of exactly the type of the table is read unchanged. -/
theorem C141_unchanged (a : Arr) : castArr leafCan leafCast m a.ty a = some a := by
  cases h : a.ty with
  | leaf b => rw [castArr, if_pos h]
  | list e => cases e; rw [castArr, if_pos h]
  | struct fs => rw [castArr, if_pos h]

/-- No NULL arrives where the type of the table forbids it: if the check before the cast passes and the rows of
the file respect the type of the file, the result respects the type of the table (no type casts to the type
`Null` in Arrow). -/
theorem C141_required (no_cast_to_null : ∀ a, leafCan a 0 = false) {s t : Fld} {a b : Arr} (wellFormed : ok a)
    (type : a.ty = s.ty) (checked : canCast leafCan m s t = true)
    (cast : castArr leafCan leafCast m t.ty a = some b) (file : ∀ v ∈ rows a, fitsFld s v) :
    ∀ v ∈ rows b, fitsFld t v := by
  intro v hv
  rw [(C141_rows wellFormed cast).2, type] at hv
  obtain ⟨u, hu, rfl⟩ := List.mem_map.1 hv
  exact conv_fits no_cast_to_null t s u checked (file u hu)

/-- A struct of the table with a required field that the file does not have is refused, unless the types
are the same or the file has only NULLs of the type `Null`. -/
theorem C141_missing_required {s t : Fld} {sfs tfs : Flds} (source : s.ty = .struct sfs)
    (target : t.ty = .struct tfs) (differ : sfs ≠ tfs) {f : Fld} (field : f ∈ tfs.toList)
    (required : f.nullable = false) (missing : ∀ x ∈ sfs.toList, matchesField m x f = false) :
    canCast leafCan m s t = false := by
  have hnone : find m sfs.toList f = none := by
    unfold find
    rw [List.findIdx?_eq_none_iff]
    exact fun x hx => missing x hx
  have key : ∀ fs : Flds, f ∈ fs.toList → canCastFields leafCan m sfs.toList fs = false := by
    intro fs
    induction fs using Flds.rec (motive_1 := fun _ => True) (motive_2 := fun _ => True) with
    | nil => intro h; simp [Flds.toList] at h
    | cons x rest _ ih =>
      intro h
      rw [Flds.toList, List.mem_cons] at h
      rw [canCastFields, Bool.and_eq_false_iff]
      rcases h with rfl | h
      · left; rw [hnone]; exact required
      · exact Or.inr (ih h)
    | _ => trivial
  obtain ⟨a, b, c, nl, ty⟩ := t
  rw [Fld.ty] at target
  subst target
  rw [canCast, source, if_neg (by simp)]
  split
  · rfl
  · rw [if_neg (by simpa using differ)]
    simp [key tfs field]

/-- The cast itself refuses it as well, if one of the structs is not NULL: whatever it reads, every required field
of the table is in the file. -/
theorem C141_required_fields_exist {sfs tfs : Flds} {valid : List Bool} {columns : Arrs} {b : Arr} (differ : sfs ≠ tfs)
    (not_null : true ∈ valid) (cast : castArr leafCan leafCast m (.struct tfs) (.struct sfs valid columns) = some b)
    {f : Fld} (field : f ∈ tfs.toList) (required : f.nullable = false) :
    ∃ x ∈ sfs.toList, matchesField m x f = true := by
  have key : ∀ fs : Flds, f ∈ fs.toList → canCastFields leafCan m sfs.toList fs = true →
      (find m sfs.toList f).isSome = true := by
    intro fs
    induction fs using Flds.rec (motive_1 := fun _ => True) (motive_2 := fun _ => True) with
    | nil => intro h; simp [Flds.toList] at h
    | cons x rest _ ih =>
      intro h c
      rw [Flds.toList, List.mem_cons] at h
      rw [canCastFields, Bool.and_eq_true] at c
      rcases h with rfl | h
      · cases e : find m sfs.toList f with
        | some i => rfl
        | none => simp [e, required] at c
      · exact ih h c.2
    | _ => trivial
  have some_valid : ¬ valid.countP (fun b : Bool => !b) = valid.length := by
    intro e
    have := List.countP_eq_length.1 e true not_null
    simp at this
  rw [castArr, if_neg (by simpa [Arr.ty] using differ), if_neg (by simp [Arr.ty, Arr.len, Arr.nullCount, some_valid]),
    Arr.asStruct, Option.bind_some] at cast
  split at cast
  · rename_i v
    rw [validateStruct, Bool.and_eq_true] at v
    have := key tfs field v.2
    rw [find, List.findIdx?_isSome] at this
    simpa using this
  · simp at cast

example : (castArr (fun _ _ => true) (fun _ _ x => some x) .name
      (.struct (.cons (.mk "x" none none true (.leaf 1)) (.cons (.mk "z" none none false (.leaf 1)) .nil)))
      (.struct (.cons (.mk "x" none none true (.leaf 1)) .nil) [true] (.cons (.leaf 1 [some 5]) .nil))).isSome = false
    ∧ (castArr (fun _ _ => true) (fun _ _ x => some x) .name
      (.struct (.cons (.mk "x" none none true (.leaf 1)) (.cons (.mk "z" none none true (.leaf 1)) .nil)))
      (.struct (.cons (.mk "x" none none true (.leaf 1)) .nil) [true] (.cons (.leaf 1 [some 5]) .nil))).isSome = true := by
  constructor <;> simp [castArr, Arr.ty, Arr.asStruct, Arr.len, Arr.nullCount, validateStruct, canCastFields, canCast, find,
    matchesField, Flds.toList, Fld.name, Fld.nullable, Fld.ty, castColumns, Arrs.toList, List.findIdx?_cons]

/-- Which field of the file a field of the table means: with column mapping by name, the one that is named in the file
as the metadata of the table say; with mapping by id, the one with the same id; without such metadata none. -/
theorem C141_identity (s t : Fld) :
    (matchesField .physicalName s t = true ↔ t.physical = some s.name)
    ∧ (matchesField .fieldId s t = true ↔ t.id ≠ none ∧ s.id = t.id)
    ∧ (matchesField .name s t = true ↔ s.name = t.name) := by
  refine ⟨?_, ?_, by simp [matchesField]⟩
  · cases h : t.physical <;> simp [matchesField, h, eq_comm]
  · cases h : t.id <;> simp [matchesField, h]

example : matchesField .physicalName (.mk "col-1" none none true (.leaf 1)) (.mk "a" (some "col-1") (some 1) true (.leaf 1)) = true
    ∧ matchesField .fieldId (.mk "a" none none true (.leaf 1)) (.mk "a" none none true (.leaf 1)) = false := by decide

/-- A column of the type `Null` passes the check for a nullable list, but reading it always fails; for a struct it
is read as NULLs. -/
theorem C141_null_column (s t : Fld) (rs : List (Option Int)) (source : s.ty = .leaf 0)
    (nullable : t.nullable = true) :
    canCast leafCan m s t = true
    ∧ (∀ e, t.ty = .list e → castArr leafCan leafCast m t.ty (.leaf 0 rs) = none)
    ∧ ∀ fs, t.ty = .struct fs → castArr leafCan leafCast m t.ty (.leaf 0 rs) = some (nullArr rs.length t.ty) := by
  obtain ⟨a, b, c, nl, ty⟩ := t
  refine ⟨?_, fun e he => ?_, fun fs hs => ?_⟩
  · cases ty <;> rw [canCast, if_pos source] <;> exact nullable
  · rw [he]
    cases e
    rw [castArr, if_neg (by simp [Arr.ty])]
    rfl
  · rw [hs, castArr, if_neg (by simp [Arr.ty]), if_pos (show _ ∨ _ from Or.inl (by rfl))]
    rfl

example : castArr (fun _ _ => true) (fun _ _ x => some x) .name (.list (.mk "e" none none true (.leaf 1)))
    (.leaf 0 [none, none]) = none := by rfl

/-! ### An example -/

/-- The type of the file: a struct of `x` and `y`, in the table `y` with a wider type, a new `z`, and `x`. -/
def Spec.fileTy : Flds :=
  .cons (.mk "x" none (some 1) false (.leaf 1)) (.cons (.mk "y" none (some 2) true (.leaf 1)) .nil)
def Spec.tableTy : Flds :=
  .cons (.mk "b" none (some 2) true (.leaf 2)) (.cons (.mk "z" none (some 3) true (.list (.mk "e" none none false (.leaf 1))))
    (.cons (.mk "a" none (some 1) false (.leaf 1)) .nil))
def Spec.fileArr : Arr :=
  .list (.mk "e" none none true (.struct Spec.fileTy)) [some (0, 1), none, some (1, 2)]
    (.struct Spec.fileTy [true, false, true]
      (.cons (.leaf 1 [some 10, some 99, some 12]) (.cons (.leaf 1 [none, some 98, some 22]) .nil)))

example : ok Spec.fileArr
    ∧ canCast (fun a b => decide (a = 1 ∧ b = 2)) .fieldId (.mk "c" none none true Spec.fileArr.ty)
        (.mk "c" none none true (.list (.mk "e" none none true (.struct Spec.tableTy)))) = true
    ∧ canCast (fun a b => decide (a = 1 ∧ b = 2)) .name (.mk "c" none none true Spec.fileArr.ty)
        (.mk "c" none none true (.list (.mk "e" none none true (.struct Spec.tableTy)))) = false := by
  refine ⟨?_, by decide, by decide⟩
  simp [Spec.fileArr, ok, okAll, Arr.ty, Fld.ty, Spec.fileTy]

/-- By field id the fields change places and names, `z` is NULL, and the hidden values of the NULL struct stay
hidden. -/
example : (castArr (fun a b => decide (a = 1 ∧ b = 2)) (fun _ _ x => some (x * 100)) .fieldId
      (.list (.mk "e" none none true (.struct Spec.tableTy))) Spec.fileArr).map rows
    = some [.list [.struct [.null, .null, .leaf 10]], .null,
        .list [.null, .struct [.leaf 2200, .null, .leaf 12]]] := by
  simp [castArr, Spec.fileArr, Spec.fileTy, Spec.tableTy, Arr.ty, Arr.asList, Arr.asStruct, Arr.len, Arr.nullCount,
    validateStruct, canCastFields, canCast, find, matchesField, Flds.toList, Fld.id, Fld.nullable, Fld.ty,
    castColumns, Arrs.toList, castLeaf, Arr.asLeaf, nullArr, rows, allRows, List.range_succ, List.findIdx?_cons]

end Verif.Evolve
