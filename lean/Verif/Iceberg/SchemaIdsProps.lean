import Verif.Iceberg.SchemaIds
import Mathlib.Data.List.Nodup
import Mathlib.Data.List.Range

/-! C143, C144, C145: field ids of Iceberg schemas. -/

namespace Verif.Iceberg.SchemaIds

/-! ### What is claimed -/

mutual
/-- The ids inside a type, at every depth. -/
def Spec.idsTy : Ty → List Nat
  | .prim _ => []
  | .struct fs => Spec.idsFlds fs
  | .list e => Spec.ids e
  | .map k v => Spec.ids k ++ Spec.ids v
/-- The ids of a field and of everything inside it. -/
def Spec.ids : Fld → List Nat
  | .mk i _ _ _ _ t => i :: Spec.idsTy t
def Spec.idsFlds : Flds → List Nat
  | .nil => []
  | .cons f rest => Spec.ids f ++ Spec.idsFlds rest
end

/-- The ids of a schema. -/
def Spec.idsOf (fs : List Fld) : List Nat := fs.flatMap Spec.ids

/-- The ids from `k` up to, but without, `k'`. -/
def Spec.fresh (k k' : Nat) : List Nat := List.range' k (k' - k)

/-- A step from a field into its type. -/
inductive Spec.Step where
  | field (name : String)
  | element
  | key
  | value
deriving DecidableEq

/-- The part of a type that a step leads to. -/
def Spec.part : Ty → Spec.Step → Option Fld
  | .struct fs, .field n => fs.toList.find? fun f => decide (f.name = n)
  | .list e, .element => some e
  | .map k _, .key => some k
  | .map _ v, .value => some v
  | _, _ => none

/-- The id of what a path leads to. -/
def Spec.idAt : List Spec.Step → Fld → Option Nat
  | [], f => some f.id
  | s :: p, f => (Spec.part f.ty s).bind (Spec.idAt p)

/-- The id of what a path leads to that begins with a column. -/
def Spec.idIn (fs : List Fld) (column : String) (p : List Spec.Step) : Option Nat :=
  (fs.find? fun f => decide (f.name = column)).bind (Spec.idAt p)

open Spec (idsTy ids idsFlds idsOf fresh Step part idAt idIn)

/-! ### Lists of ids -/

theorem fresh_self (k : Nat) : fresh k k = [] := by simp [fresh]

theorem fresh_append {a b c : Nat} (h1 : a ≤ b) (h2 : b ≤ c) : fresh a b ++ fresh b c = fresh a c := by
  unfold fresh
  have := List.range'_append_1 (s := a) (m := b - a) (n := c - b)
  rw [show a + (b - a) = b by omega, show b - a + (c - b) = c - a by omega] at this
  exact this

theorem fresh_cons {a b : Nat} (h : a < b) : a :: fresh (a + 1) b = fresh a b := by
  unfold fresh
  rw [show b - a = (b - (a + 1)) + 1 by omega, List.range'_succ]

theorem idsOf_cons (f : Fld) (fs : List Fld) : idsOf (f :: fs) = ids f ++ idsOf fs := List.flatMap_cons

theorem idsOf_append (a b : List Fld) : idsOf (a ++ b) = idsOf a ++ idsOf b := List.flatMap_append

theorem idsFlds_toList : ∀ fs : Flds, idsFlds fs = idsOf fs.toList
  | .nil => by simp [idsFlds, Flds.toList, idsOf]
  | .cons f rest => by rw [idsFlds, Flds.toList, idsOf_cons, idsFlds_toList rest]

theorem toList_ofList : ∀ fs : List Fld, (Flds.ofList fs).toList = fs
  | [] => rfl
  | f :: rest => by rw [Flds.ofList, Flds.toList, toList_ofList rest]

theorem idsOf_perm {a b : List Fld} (h : a.Perm b) : (idsOf a).Perm (idsOf b) := h.flatMap_right _

/-! ### New ids -/

mutual
theorem assignTy_ids : ∀ (t : Ty) (k : Nat), k ≤ (assignTy t k).2 ∧ idsTy (assignTy t k).1 = fresh k (assignTy t k).2
  | .prim n, k => by simp [assignTy, idsTy, fresh_self]
  | .struct fs, k => by
    rw [assignTy, idsTy]
    exact assignFlds_ids fs k
  | .list e, k => by
    rw [assignTy, idsTy]
    have := assignFld_ids e k
    exact ⟨by omega, this.2⟩
  | .map a b, k => by
    rw [assignTy, idsTy]
    have h1 := assignFld_ids a k
    have h2 := assignFld_ids b (assignFld a k).2
    exact ⟨by dsimp only; omega, by rw [h1.2, h2.2, fresh_append (by omega) (by omega)]⟩
theorem assignFld_ids : ∀ (f : Fld) (k : Nat), k < (assignFld f k).2 ∧ ids (assignFld f k).1 = fresh k (assignFld f k).2
  | .mk i n r a w t, k => by
    rw [assignFld, ids]
    have h := assignTy_ids t (k + 1)
    exact ⟨by dsimp only; omega, by rw [h.2, fresh_cons (by omega)]⟩
theorem assignFlds_ids : ∀ (fs : Flds) (k : Nat),
    k ≤ (assignFlds fs k).2 ∧ idsFlds (assignFlds fs k).1 = fresh k (assignFlds fs k).2
  | .nil, k => by simp [assignFlds, idsFlds, fresh_self]
  | .cons f rest, k => by
    rw [assignFlds, idsFlds]
    have h1 := assignFld_ids f k
    have h2 := assignFlds_ids rest (assignFld f k).2
    exact ⟨by dsimp only; omega, by rw [h1.2, h2.2, fresh_append (by omega) (by omega)]⟩
end

theorem assignSchema_ids : ∀ (fs : List Fld) (k : Nat),
    k ≤ (assignSchema fs k).2 ∧ idsOf (assignSchema fs k).1 = fresh k (assignSchema fs k).2
  | [], k => by simp [assignSchema, idsOf, fresh_self]
  | f :: rest, k => by
    rw [assignSchema, idsOf_cons]
    have h1 := assignFld_ids f k
    have h2 := assignSchema_ids rest (assignFld f k).2
    exact ⟨by dsimp only; omega, by rw [h1.2, h2.2, fresh_append (by omega) (by omega)]⟩

theorem ids_optionalNew (f : Fld) : ids f.optionalNew = ids f := by cases f; rfl

theorem buildFld_ids (f : Fld) (k : Nat) : k < (buildFld f k).2 ∧ ids (buildFld f k).1 = fresh k (buildFld f k).2 := by
  unfold buildFld
  rw [ids_optionalNew]
  exact assignFld_ids f k

theorem buildFld_name (f : Fld) (k : Nat) : (buildFld f k).1.name = f.name := by
  cases f; rfl

/-! ### Merging: the ids -/

theorem ids_relax (f : Fld) (b : Bool) : ids (f.relax b) = ids f := by cases f; rfl

theorem ids_withTy (f : Fld) (t : Ty) : ids (f.withTy t) = f.id :: idsTy t := by cases f; rfl

theorem id_relax (f : Fld) (b : Bool) : (f.relax b).id = f.id := by cases f; rfl

theorem ids_eq (f : Fld) : ids f = f.id :: idsTy f.ty := by cases f; rfl

theorem find_eraseP {p : Fld → Bool} : ∀ {l : List Fld} {e : Fld}, l.find? p = some e → l.Perm (e :: l.eraseP p)
  | [], e, h => by cases h
  | x :: l, e, h => by
    rw [List.find?_cons] at h
    rw [List.eraseP_cons]
    cases hx : p x with
    | true =>
      rw [hx] at h
      simp only [Option.some.injEq] at h
      subst h
      exact List.Perm.refl _
    | false =>
      rw [hx] at h
      exact ((find_eraseP h).cons x).trans (List.Perm.swap e x _)

variable {E : Env}

/-- Puts an interval of new ids behind everything else. -/
theorem perm_shift (a b c d x y z : List Nat) (h1 : a.Perm (b ++ x)) (h2 : (c ++ d).Perm (z ++ y)) :
    (a ++ c ++ d).Perm (b ++ z ++ (x ++ y)) := by
  rw [List.append_assoc]
  refine (h1.append h2).trans ?_
  rw [List.append_assoc, List.append_assoc]
  refine List.Perm.append_left b ?_
  rw [← List.append_assoc, ← List.append_assoc]
  exact List.Perm.append_right y List.perm_append_comm

mutual
theorem mergeFld_ids (order : ∀ l, (E.order l).Perm l) : ∀ (c e : Fld) (k : Nat) (r : Fld × Bool × Nat),
    mergeFld E c e k = some r →
    k ≤ r.2.2 ∧ (r.2.1 = false → r.2.2 = k) ∧ (ids r.1).Perm (ids e ++ fresh k r.2.2)
  | .mk ci cn req ca cw (.prim b), e, k, r, h => by
    rw [mergeFld] at h
    cases ht : e.ty with
    | prim a =>
      rw [ht] at h
      simp only [Ty.asPrim, Option.bind_some] at h
      split at h
      · cases h
        refine ⟨Nat.le_refl _, fun _ => rfl, ?_⟩
        rw [ids_withTy, id_relax, fresh_self, ids_eq e, ht, idsTy, idsTy, List.append_nil]
      · split at h
        · cases h
          refine ⟨Nat.le_refl _, fun _ => rfl, ?_⟩
          rw [ids_relax, fresh_self, List.append_nil]
        · cases h
    | struct _ => rw [ht] at h; cases h
    | list _ => rw [ht] at h; cases h
    | map _ _ => rw [ht] at h; cases h
  | .mk ci cn req ca cw (.struct cs), e, k, r, h => by
    rw [mergeFld] at h
    cases ht : e.ty with
    | struct es =>
      rw [ht] at h
      simp only [Ty.asStruct, Option.bind_some, Option.bind_eq_some_iff] at h
      obtain ⟨s, hs, h⟩ := h
      obtain ⟨hk, hc, hp⟩ := mergeFlds_ids order cs es.toList k s hs
      split at h
      · cases h
      · cases h
        refine ⟨hk, fun hf => hc ?_, ?_⟩
        · simp only [Bool.or_eq_false_iff] at hf; exact hf.2
        · dsimp only
          split
          · rw [ids_withTy, id_relax, idsTy, idsFlds_toList, toList_ofList, idsOf_append, ids_eq e, ht, idsTy,
              idsFlds_toList, List.cons_append]
            exact (((idsOf_perm (order _)).append_left _).trans hp).cons _
          · next hn =>
            rw [ids_relax, hc (by simpa using hn), fresh_self, List.append_nil]
    | prim _ => rw [ht] at h; cases h
    | list _ => rw [ht] at h; cases h
    | map _ _ => rw [ht] at h; cases h
  | .mk ci cn req ca cw (.list c), e, k, r, h => by
    rw [mergeFld] at h
    cases ht : e.ty with
    | list ee =>
      rw [ht] at h
      simp only [Ty.asList, Option.bind_some, Option.bind_eq_some_iff] at h
      obtain ⟨s, hs, h⟩ := h
      obtain ⟨hk, hc, hp⟩ := mergeFld_ids order c ee k s hs
      cases h
      refine ⟨hk, fun hf => hc ?_, ?_⟩
      · simp only [Bool.or_eq_false_iff] at hf; exact hf.2
      · dsimp only
        split
        · rw [ids_withTy, id_relax, idsTy, ids_eq e, ht, idsTy, List.cons_append]
          exact hp.cons _
        · next hn =>
          rw [ids_relax, hc (by simpa using hn), fresh_self, List.append_nil]
    | prim _ => rw [ht] at h; cases h
    | struct _ => rw [ht] at h; cases h
    | map _ _ => rw [ht] at h; cases h
  | .mk ci cn req ca cw (.map ck cv), e, k, r, h => by
    rw [mergeFld] at h
    cases ht : e.ty with
    | map ek ev =>
      rw [ht] at h
      simp only [Ty.asMap, Option.bind_some, Option.bind_eq_some_iff] at h
      obtain ⟨s, hs, h⟩ := h
      obtain ⟨hk, hc, hp⟩ := mergeFld_ids order ck ek k s hs
      split at h
      · cases h
      · next hn =>
        obtain ⟨u, hu, h⟩ := Option.bind_eq_some_iff.1 h
        obtain ⟨hk2, hc2, hp2⟩ := mergeFld_ids order cv ev s.2.2 u hu
        have hsk : s.2.2 = k := hc (by simpa using hn)
        cases h
        refine ⟨by dsimp only; omega, fun hf => ?_, ?_⟩
        · simp only [Bool.or_eq_false_iff] at hf
          dsimp only
          rw [hc2 hf.2, hsk]
        · dsimp only
          rw [hsk, fresh_self, List.append_nil] at hp
          rw [hsk] at hp2
          split
          · rw [ids_withTy, id_relax, idsTy, ids_eq e, ht, idsTy, List.cons_append, List.append_assoc]
            exact (hp.append hp2).cons _
          · next hn2 =>
            rw [ids_relax, hc2 (by simpa using hn2), hsk, fresh_self, List.append_nil]
    | prim _ => rw [ht] at h; cases h
    | struct _ => rw [ht] at h; cases h
    | list _ => rw [ht] at h; cases h
theorem mergeFlds_ids (order : ∀ l, (E.order l).Perm l) : ∀ (cs : Flds) (pool : List Fld) (k : Nat)
    (r : List Fld × List Fld × Bool × Nat), mergeFlds E cs pool k = some r →
    k ≤ r.2.2.2 ∧ (r.2.2.1 = false → r.2.2.2 = k) ∧ (idsOf r.1 ++ idsOf r.2.1).Perm (idsOf pool ++ fresh k r.2.2.2)
  | .nil, pool, k, r, h => by
    rw [mergeFlds] at h
    cases h
    refine ⟨Nat.le_refl _, fun _ => rfl, ?_⟩
    dsimp only
    rw [fresh_self, List.append_nil]
    exact List.Perm.refl _
  | .cons c rest, pool, k, r, h => by
    rw [mergeFlds] at h
    cases hf : pool.find? (fun f => decide (f.name = c.name)) with
    | none =>
      rw [hf, Option.elim_none, Option.bind_eq_some_iff] at h
      obtain ⟨s, hs, h⟩ := h
      obtain ⟨hk, hc, hp⟩ := mergeFlds_ids order rest pool _ s hs
      obtain ⟨hb, hbi⟩ := buildFld_ids c k
      cases h
      refine ⟨by dsimp only; omega, fun hx => Bool.noConfusion hx, ?_⟩
      dsimp only
      rw [idsOf_cons, hbi, ← fresh_append (Nat.le_of_lt hb) hk]
      exact perm_shift (fresh k (buildFld c k).2) [] (idsOf s.1) (idsOf s.2.1) (fresh k (buildFld c k).2)
        (fresh (buildFld c k).2 s.2.2.2) (idsOf pool) (List.Perm.refl _) hp
    | some e =>
      rw [hf, Option.elim_some, Option.bind_eq_some_iff] at h
      obtain ⟨u, hu, h⟩ := h
      rw [Option.bind_eq_some_iff] at h
      obtain ⟨s, hs, h⟩ := h
      obtain ⟨hk1, hc1, hp1⟩ := mergeFld_ids order c e k u hu
      obtain ⟨hk2, hc2, hp2⟩ := mergeFlds_ids order rest _ _ s hs
      cases h
      refine ⟨by dsimp only; omega, fun hx => ?_, ?_⟩
      · simp only [Bool.or_eq_false_iff] at hx
        dsimp only
        rw [hc2 hx.2, hc1 hx.1]
      · dsimp only
        rw [idsOf_cons, ← fresh_append hk1 hk2]
        refine (perm_shift _ _ _ _ _ _ _ hp1 hp2).trans (List.Perm.append_right _ ?_)
        rw [← idsOf_cons]
        exact idsOf_perm (find_eraseP hf).symm
end

theorem mergeTop_ids (order : ∀ l, (E.order l).Perm l) (input : List Fld) : ∀ (es : List Fld) (k : Nat)
    (r : List Fld × Bool × Nat), mergeTop E input es k = some r →
    k ≤ r.2.2 ∧ (r.2.1 = false → r.2.2 = k) ∧ (idsOf r.1).Perm (idsOf es ++ fresh k r.2.2)
  | [], k, r, h => by
    rw [mergeTop] at h
    cases h
    refine ⟨Nat.le_refl _, fun _ => rfl, ?_⟩
    dsimp only
    rw [fresh_self, List.append_nil]
  | e :: rest, k, r, h => by
    rw [mergeTop] at h
    split at h
    · next c hc =>
      obtain ⟨u, hu, h⟩ := Option.bind_eq_some_iff.1 h
      obtain ⟨s, hs, h⟩ := Option.bind_eq_some_iff.1 h
      obtain ⟨hk1, hc1, hp1⟩ := mergeFld_ids order c e k u hu
      obtain ⟨hk2, hc2, hp2⟩ := mergeTop_ids order input rest _ s hs
      cases h
      refine ⟨by dsimp only; omega, fun hx => ?_, ?_⟩
      · simp only [Bool.or_eq_false_iff] at hx
        dsimp only
        rw [hc2 hx.2, hc1 hx.1]
      · dsimp only
        rw [idsOf_cons, idsOf_cons, ← fresh_append hk1 hk2]
        have := perm_shift (ids u.1) (ids e) (idsOf s.1) [] (fresh k u.2.2) (fresh u.2.2 s.2.2) (idsOf rest) hp1
          (by rw [List.append_nil]; exact hp2)
        rw [List.append_nil] at this
        exact this
    · split at h
      · cases h
      · obtain ⟨s, hs, h⟩ := Option.bind_eq_some_iff.1 h
        obtain ⟨hk2, hc2, hp2⟩ := mergeTop_ids order input rest _ s hs
        cases h
        refine ⟨hk2, hc2, ?_⟩
        dsimp only
        rw [idsOf_cons, idsOf_cons, List.append_assoc]
        exact hp2.append_left _

theorem addNew_ids (existing : List Fld) : ∀ (input : List Fld) (k : Nat),
    k ≤ (addNew existing input k).2 ∧ idsOf (addNew existing input k).1 = fresh k (addNew existing input k).2
  | [], k => by simp [addNew, idsOf, fresh_self]
  | c :: rest, k => by
    rw [addNew]
    split
    · exact addNew_ids existing rest k
    · have h1 := buildFld_ids c k
      have h2 := addNew_ids existing rest (buildFld c k).2
      exact ⟨by dsimp only; omega, by rw [idsOf_cons, h1.2, h2.2, fresh_append (by omega) (by omega)]⟩

/-! ### C143 -/

/-- After mergeSchema the ids in the schema, at every depth, are exactly the old ones and an interval of new ones
that begins after the last id of the table; each as often as before, and each new one once. -/
theorem C143_ids (order : ∀ l, (E.order l).Perm l) {last : Nat} {existing input merged : List Fld}
    (accepted : mergeSchema E last existing input = some merged) :
    ∃ next, last < next ∧ (idsOf merged).Perm (idsOf existing ++ fresh (last + 1) next) := by
  unfold mergeSchema at accepted
  obtain ⟨r, hr, h⟩ := Option.bind_eq_some_iff.1 accepted
  obtain ⟨hk, hc, hp⟩ := mergeTop_ids order input existing _ r hr
  obtain ⟨ha, hai⟩ := addNew_ids existing input r.2.2
  split at h
  · cases h
    refine ⟨(addNew existing input r.2.2).2, by omega, ?_⟩
    rw [idsOf_append, hai, ← fresh_append hk ha, ← List.append_assoc]
    exact hp.append_right _
  · cases h
    exact ⟨last + 1, by omega, by rw [fresh_self, List.append_nil]⟩

/-- So no id is given twice, if the last column id of the table is what it should be (C144 says when it is). -/
theorem C143_unique (order : ∀ l, (E.order l).Perm l) {last : Nat} {existing input merged : List Fld}
    (accepted : mergeSchema E last existing input = some merged) (unique : (idsOf existing).Nodup)
    (bound : ∀ i ∈ idsOf existing, i ≤ last) : (idsOf merged).Nodup := by
  obtain ⟨next, _, hp⟩ := C143_ids order accepted
  rw [hp.nodup_iff, List.nodup_append]
  refine ⟨unique, List.nodup_range', ?_⟩
  intro a ha b hb
  have h1 := bound a ha
  unfold fresh at hb
  rw [List.mem_range'_1] at hb
  omega

/-! ### Merging: the paths -/

theorem find_eraseP_ne {n n' : String} (h : n ≠ n') : ∀ l : List Fld,
    (l.eraseP fun f => decide (f.name = n')).find? (fun f => decide (f.name = n))
      = l.find? fun f => decide (f.name = n)
  | [] => rfl
  | x :: l => by
    rw [List.eraseP_cons]
    by_cases hx : x.name = n'
    · simp only [hx, decide_true, cond_true]
      rw [List.find?_cons]
      have : decide (x.name = n) = false := by rw [hx]; simpa using fun e => h e.symm
      rw [this]
    · simp only [hx, decide_false, cond_false]
      rw [List.find?_cons, List.find?_cons, find_eraseP_ne h l]

theorem idAt_relax (p : List Step) (f : Fld) (b : Bool) : idAt p (f.relax b) = idAt p f := by
  cases f
  cases p <;> rfl

theorem name_relax (f : Fld) (b : Bool) : (f.relax b).name = f.name := by cases f; rfl

theorem name_withTy (f : Fld) (t : Ty) : (f.withTy t).name = f.name := by cases f; rfl

theorem ty_withTy (f : Fld) (t : Ty) : (f.withTy t).ty = t := by cases f; rfl

theorem id_withTy (f : Fld) (t : Ty) : (f.withTy t).id = f.id := by cases f; rfl

theorem mergeFld_name (c e : Fld) (k : Nat) (r : Fld × Bool × Nat) (h : mergeFld E c e k = some r) :
    r.1.name = e.name := by
  obtain ⟨ci, cn, req, ca, cw, t⟩ := c
  cases t with
  | prim b =>
    rw [mergeFld, Option.bind_eq_some_iff] at h
    obtain ⟨a, _, h⟩ := h
    split at h
    · cases h; rw [name_withTy, name_relax]
    · split at h
      · cases h; rw [name_relax]
      · cases h
  | struct cs =>
    rw [mergeFld, Option.bind_eq_some_iff] at h
    obtain ⟨a, _, h⟩ := h
    obtain ⟨s, _, h⟩ := Option.bind_eq_some_iff.1 h
    split at h
    · cases h
    · cases h
      dsimp only
      split
      · rw [name_withTy, name_relax]
      · rw [name_relax]
  | list c =>
    rw [mergeFld, Option.bind_eq_some_iff] at h
    obtain ⟨a, _, h⟩ := h
    obtain ⟨s, _, h⟩ := Option.bind_eq_some_iff.1 h
    cases h
    dsimp only
    split
    · rw [name_withTy, name_relax]
    · rw [name_relax]
  | map ck cv =>
    rw [mergeFld, Option.bind_eq_some_iff] at h
    obtain ⟨a, _, h⟩ := h
    obtain ⟨s, _, h⟩ := Option.bind_eq_some_iff.1 h
    split at h
    · cases h
    · obtain ⟨u, _, h⟩ := Option.bind_eq_some_iff.1 h
      cases h
      dsimp only
      split
      · rw [name_withTy, name_relax]
      · rw [name_relax]

mutual
theorem mergeFld_paths
    (named : ∀ (l : List Fld) (n : String), ((E.order l).find? fun f => decide (f.name = n)) = l.find? fun f => decide (f.name = n)) :
    ∀ (c e : Fld) (k : Nat) (r : Fld × Bool × Nat), mergeFld E c e k = some r →
    ∀ (p : List Step) (i : Nat), idAt p e = some i → idAt p r.1 = some i
  | .mk ci cn req ca cw (.prim b), e, k, r, h, p, i, hi => by
    rw [mergeFld, Option.bind_eq_some_iff] at h
    obtain ⟨a, ha, h⟩ := h
    split at h
    · cases h
      cases p with
      | nil => rw [idAt, id_withTy, id_relax]; exact hi
      | cons s p =>
        cases ht : e.ty with
        | prim _ => rw [idAt, ht] at hi; cases s <;> cases hi
        | struct _ => rw [ht] at ha; cases ha
        | list _ => rw [ht] at ha; cases ha
        | map _ _ => rw [ht] at ha; cases ha
    · split at h
      · cases h
        dsimp only
        rw [idAt_relax]; exact hi
      · cases h
  | .mk ci cn req ca cw (.struct cs), e, k, r, h, p, i, hi => by
    rw [mergeFld, Option.bind_eq_some_iff] at h
    obtain ⟨es, hes, h⟩ := h
    obtain ⟨s, hs, h⟩ := Option.bind_eq_some_iff.1 h
    have ih := mergeFlds_paths named cs es k s hs
    split at h
    · cases h
    · cases h
      dsimp only
      split
      · cases p with
        | nil => rw [idAt, id_withTy, id_relax]; exact hi
        | cons st p =>
          cases ht : e.ty with
          | struct efs =>
            rw [ht] at hes
            cases hes
            rw [idAt, ht] at hi
            rw [idAt, ty_withTy]
            cases st with
            | field n =>
              obtain ⟨e0, he0, hi⟩ := Option.bind_eq_some_iff.1 hi
              rw [part] at he0 ⊢
              rw [toList_ofList]
              obtain ⟨f, hf, hfi⟩ := ih n e0 he0 p i hi
              rw [hf]
              exact hfi
            | element => cases hi
            | key => cases hi
            | value => cases hi
          | prim _ => rw [ht] at hes; cases hes
          | list _ => rw [ht] at hes; cases hes
          | map _ _ => rw [ht] at hes; cases hes
      · rw [idAt_relax]; exact hi
  | .mk ci cn req ca cw (.list c), e, k, r, h, p, i, hi => by
    rw [mergeFld, Option.bind_eq_some_iff] at h
    obtain ⟨ee, hee, h⟩ := h
    obtain ⟨s, hs, h⟩ := Option.bind_eq_some_iff.1 h
    have ih := mergeFld_paths named c ee k s hs
    cases h
    dsimp only
    split
    · cases p with
      | nil => rw [idAt, id_withTy, id_relax]; exact hi
      | cons st p =>
        cases ht : e.ty with
        | list x =>
          rw [ht] at hee
          cases hee
          rw [idAt, ht] at hi
          rw [idAt, ty_withTy]
          cases st with
          | element => exact ih p i hi
          | field _ => cases hi
          | key => cases hi
          | value => cases hi
        | prim _ => rw [ht] at hee; cases hee
        | struct _ => rw [ht] at hee; cases hee
        | map _ _ => rw [ht] at hee; cases hee
    · rw [idAt_relax]; exact hi
  | .mk ci cn req ca cw (.map ck cv), e, k, r, h, p, i, hi => by
    rw [mergeFld, Option.bind_eq_some_iff] at h
    obtain ⟨kv, hkv, h⟩ := h
    obtain ⟨s, hs, h⟩ := Option.bind_eq_some_iff.1 h
    have ih1 := mergeFld_paths named ck kv.1 k s hs
    split at h
    · cases h
    · obtain ⟨u, hu, h⟩ := Option.bind_eq_some_iff.1 h
      have ih2 := mergeFld_paths named cv kv.2 s.2.2 u hu
      cases h
      dsimp only
      split
      · cases p with
        | nil => rw [idAt, id_withTy, id_relax]; exact hi
        | cons st p =>
          cases ht : e.ty with
          | map x y =>
            rw [ht] at hkv
            cases hkv
            rw [idAt, ht] at hi
            rw [idAt, ty_withTy]
            cases st with
            | key => exact ih1 p i hi
            | value => exact ih2 p i hi
            | field _ => cases hi
            | element => cases hi
          | prim _ => rw [ht] at hkv; cases hkv
          | struct _ => rw [ht] at hkv; cases hkv
          | list _ => rw [ht] at hkv; cases hkv
      · rw [idAt_relax]; exact hi
theorem mergeFlds_paths
    (named : ∀ (l : List Fld) (n : String), ((E.order l).find? fun f => decide (f.name = n)) = l.find? fun f => decide (f.name = n)) :
    ∀ (cs : Flds) (pool : List Fld) (k : Nat) (r : List Fld × List Fld × Bool × Nat), mergeFlds E cs pool k = some r →
    ∀ (n : String) (e : Fld), (pool.find? fun f => decide (f.name = n)) = some e →
    ∀ (p : List Step) (i : Nat), idAt p e = some i →
    ∃ f, ((r.1 ++ E.order r.2.1).find? fun f => decide (f.name = n)) = some f ∧ idAt p f = some i
  | .nil, pool, k, r, h, n, e, he, p, i, hi => by
    rw [mergeFlds] at h
    cases h
    exact ⟨e, by rw [List.nil_append, named]; exact he, hi⟩
  | .cons c rest, pool, k, r, h, n, e, he, p, i, hi => by
    rw [mergeFlds] at h
    cases hf : pool.find? (fun f => decide (f.name = c.name)) with
    | none =>
      rw [hf, Option.elim_none, Option.bind_eq_some_iff] at h
      obtain ⟨s, hs, h⟩ := h
      obtain ⟨f, hff, hfi⟩ := mergeFlds_paths named rest pool _ s hs n e he p i hi
      cases h
      refine ⟨f, ?_, hfi⟩
      have hne : c.name ≠ n := by
        rintro rfl
        rw [hf] at he
        cases he
      dsimp only
      rw [List.cons_append, List.find?_cons, buildFld_name]
      simp only [hne, decide_false]
      exact hff
    | some e1 =>
      rw [hf, Option.elim_some, Option.bind_eq_some_iff] at h
      obtain ⟨u, hu, h⟩ := h
      rw [Option.bind_eq_some_iff] at h
      obtain ⟨s, hs, h⟩ := h
      have hname := mergeFld_name c e1 k u hu
      have h1 : e1.name = c.name := by simpa using List.find?_some hf
      cases h
      dsimp only
      rw [List.cons_append, List.find?_cons, hname, h1]
      by_cases hn : c.name = n
      · subst hn
        rw [hf] at he
        cases he
        simp only [decide_true]
        exact ⟨_, rfl, mergeFld_paths named c e k u hu p i hi⟩
      · simp only [hn, decide_false]
        refine mergeFlds_paths named rest _ _ s hs n e ?_ p i hi
        rw [find_eraseP_ne (fun x => hn x.symm)]
        exact he
end

theorem mergeTop_paths
    (named : ∀ (l : List Fld) (n : String), ((E.order l).find? fun f => decide (f.name = n)) = l.find? fun f => decide (f.name = n))
    (input : List Fld) : ∀ (es : List Fld) (k : Nat) (r : List Fld × Bool × Nat), mergeTop E input es k = some r →
    ∀ (n : String) (e : Fld), (es.find? fun f => decide (f.name = n)) = some e →
    ∀ (p : List Step) (i : Nat), idAt p e = some i →
    ∃ f, (r.1.find? fun f => decide (f.name = n)) = some f ∧ idAt p f = some i
  | [], k, r, h, n, e, he, p, i, hi => by cases he
  | x :: rest, k, r, h, n, e, he, p, i, hi => by
    rw [mergeTop] at h
    rw [List.find?_cons] at he
    split at h
    · next c hc =>
      obtain ⟨u, hu, h⟩ := Option.bind_eq_some_iff.1 h
      obtain ⟨s, hs, h⟩ := Option.bind_eq_some_iff.1 h
      cases h
      dsimp only
      rw [List.find?_cons, mergeFld_name c x k u hu]
      by_cases hn : x.name = n
      · simp only [hn, decide_true, Option.some.injEq] at he ⊢
        subst he
        exact ⟨_, rfl, mergeFld_paths named c x k u hu p i hi⟩
      · simp only [hn, decide_false] at he ⊢
        exact mergeTop_paths named input rest _ s hs n e he p i hi
    · split at h
      · cases h
      · obtain ⟨s, hs, h⟩ := Option.bind_eq_some_iff.1 h
        cases h
        dsimp only
        rw [List.find?_cons]
        by_cases hn : x.name = n
        · simp only [hn, decide_true, Option.some.injEq] at he ⊢
          subst he
          exact ⟨_, rfl, hi⟩
        · simp only [hn, decide_false] at he ⊢
          exact mergeTop_paths named input rest _ s hs n e he p i hi

/-- Every column, and every field inside it at any depth, keeps its id under its name (the hash map does not change
which field has which name). -/
theorem C143_paths
    (named : ∀ (l : List Fld) (n : String), ((E.order l).find? fun f => decide (f.name = n)) = l.find? fun f => decide (f.name = n))
    {last : Nat} {existing input merged : List Fld} (accepted : mergeSchema E last existing input = some merged)
    {column : String} {p : List Step} {i : Nat} (before : idIn existing column p = some i) :
    idIn merged column p = some i := by
  unfold mergeSchema at accepted
  obtain ⟨r, hr, h⟩ := Option.bind_eq_some_iff.1 accepted
  obtain ⟨e, he, hi⟩ := Option.bind_eq_some_iff.1 before
  split at h
  · cases h
    obtain ⟨f, hf, hfi⟩ := mergeTop_paths named input existing _ r hr column e he p i hi
    unfold idIn
    rw [List.find?_append, hf]
    exact hfi
  · cases h
    exact before

theorem mergeTop_names (input : List Fld) : ∀ (es : List Fld) (k : Nat) (r : List Fld × Bool × Nat),
    mergeTop E input es k = some r → r.1.map Fld.name = es.map Fld.name
  | [], k, r, h => by
    rw [mergeTop] at h
    cases h
    rfl
  | x :: rest, k, r, h => by
    rw [mergeTop] at h
    split at h
    · next c hc =>
      obtain ⟨u, hu, h⟩ := Option.bind_eq_some_iff.1 h
      obtain ⟨s, hs, h⟩ := Option.bind_eq_some_iff.1 h
      cases h
      rw [List.map_cons, List.map_cons, mergeFld_name c x k u hu, mergeTop_names input rest _ s hs]
    · split at h
      · cases h
      · obtain ⟨s, hs, h⟩ := Option.bind_eq_some_iff.1 h
        cases h
        rw [List.map_cons, List.map_cons, mergeTop_names input rest _ s hs]

theorem addNew_names (existing : List Fld) : ∀ (input : List Fld) (k : Nat),
    (addNew existing input k).1.map Fld.name
      = (input.map Fld.name).filter fun n => decide (n ∉ existing.map Fld.name)
  | [], k => rfl
  | c :: rest, k => by
    rw [addNew]
    by_cases h : c.name ∈ existing.map Fld.name
    · have h' : (existing.any fun e => decide (e.name = c.name)) = true := by
        obtain ⟨e, he, hn⟩ := List.mem_map.1 h
        exact List.any_eq_true.2 ⟨e, he, by simpa using hn⟩
      rw [if_pos h', List.map_cons, List.filter_cons_of_neg (by simpa using h), addNew_names existing rest k]
    · have h' : ¬(existing.any fun e => decide (e.name = c.name)) = true := by
        intro h'
        obtain ⟨e, he, hn⟩ := List.any_eq_true.1 h'
        exact h (List.mem_map.2 ⟨e, he, by simpa using hn⟩)
      rw [if_neg h', List.map_cons, List.map_cons, List.filter_cons_of_pos (by simpa using h), buildFld_name,
        addNew_names existing rest _]

/-- The new schema has the old columns in their order and behind them the new columns of the input in their order. -/
theorem C143_names {last : Nat} {existing input merged : List Fld} (accepted : mergeSchema E last existing input = some merged) :
    merged.map Fld.name = existing.map Fld.name
      ++ (input.map Fld.name).filter fun n => decide (n ∉ existing.map Fld.name) := by
  unfold mergeSchema at accepted
  obtain ⟨r, hr, h⟩ := Option.bind_eq_some_iff.1 accepted
  split at h
  · cases h
    rw [List.map_append, mergeTop_names input existing _ r hr, addNew_names]
  · next hc =>
    cases h
    have e : (addNew existing input r.2.2).1 = [] := by
      simp only [Bool.or_eq_true, Bool.not_eq_true', not_or, Bool.not_eq_false, List.isEmpty_iff] at hc
      exact hc.2
    rw [← addNew_names existing input r.2.2, e, List.map_nil, List.append_nil]

theorem mergeTop_prim (input : List Fld) {n : String} {i : Nat} {name : String} {req a w : Bool} {new old : Nat}
    (hin : (input.find? fun f => decide (f.name = n)) = some (.mk i name req a w (.prim new))) :
    ∀ (es : List Fld) (k : Nat) (r : List Fld × Bool × Nat), mergeTop E input es k = some r →
    ∀ (e : Fld), (es.find? fun f => decide (f.name = n)) = some e → e.ty = .prim old →
    ∃ f, (r.1.find? fun f => decide (f.name = n)) = some f
      ∧ f.ty = .prim (if E.promotes old new then new else old) ∧ f.required = (e.required && req)
      ∧ (r.2.1 = false → f.ty = e.ty ∧ f.required = e.required)
  | [], k, r, h, e, he, ht => by cases he
  | x :: rest, k, r, h, e, he, ht => by
    rw [mergeTop] at h
    rw [List.find?_cons] at he
    by_cases hn : x.name = n
    · subst hn
      simp only [decide_true, Option.some.injEq] at he
      subst he
      rw [hin] at h
      obtain ⟨u, hu, h⟩ := Option.bind_eq_some_iff.1 h
      obtain ⟨s, hs, h⟩ := Option.bind_eq_some_iff.1 h
      have hname := mergeFld_name _ x k u hu
      cases h
      refine ⟨u.1, by simp [hname], ?_⟩
      rw [mergeFld, ht, Ty.asPrim, Option.bind_some] at hu
      obtain ⟨xi, xn, xr, xa, xw, xt⟩ := x
      simp only [Fld.ty] at ht
      subst ht
      split at hu
      · next hp =>
        cases hu
        simp [Fld.withTy, Fld.relax, Fld.ty, Fld.required, hp]
      · next hp =>
        split at hu
        · cases hu
          simp [Fld.relax, Fld.ty, Fld.required, hp]
          intro h1 _ h2
          exact h1 h2
        · cases hu
    · simp only [hn, decide_false] at he
      split at h
      · next c hc =>
        obtain ⟨u, hu, h⟩ := Option.bind_eq_some_iff.1 h
        obtain ⟨s, hs, h⟩ := Option.bind_eq_some_iff.1 h
        obtain ⟨f, h1, h2, h3, h4⟩ := mergeTop_prim input hin rest _ s hs e he ht
        cases h
        refine ⟨f, ?_, h2, h3, fun hb => h4 ?_⟩
        · dsimp only
          rw [List.find?_cons, mergeFld_name c x k u hu]
          simp only [hn, decide_false]
          exact h1
        · simp only [Bool.or_eq_false_iff] at hb
          exact hb.2
      · split at h
        · cases h
        · obtain ⟨s, hs, h⟩ := Option.bind_eq_some_iff.1 h
          obtain ⟨f, h1, h2, h3, h4⟩ := mergeTop_prim input hin rest _ s hs e he ht
          cases h
          refine ⟨f, ?_, h2, h3, h4⟩
          dsimp only
          rw [List.find?_cons]
          simp only [hn, decide_false]
          exact h1

/-- A plain column is widened if the input is wider, and it is optional afterwards if the input may have NULLs. -/
theorem C143_widened {last : Nat} {existing input merged : List Fld} (accepted : mergeSchema E last existing input = some merged)
    {column name : String} {i : Nat} {req a w : Bool} {new old : Nat} {e : Fld}
    (hin : (input.find? fun f => decide (f.name = column)) = some (.mk i name req a w (.prim new)))
    (before : (existing.find? fun f => decide (f.name = column)) = some e) (plain : e.ty = .prim old) :
    ∃ f, (merged.find? fun f => decide (f.name = column)) = some f
      ∧ f.ty = .prim (if E.promotes old new then new else old) ∧ f.required = (e.required && req) := by
  unfold mergeSchema at accepted
  obtain ⟨r, hr, h⟩ := Option.bind_eq_some_iff.1 accepted
  obtain ⟨f, h1, h2, h3, h4⟩ := mergeTop_prim input hin existing _ r hr e before plain
  split at h
  · cases h
    exact ⟨f, by rw [List.find?_append, h1]; rfl, h2, h3⟩
  · next hc =>
    cases h
    simp only [Bool.or_eq_true, not_or, Bool.not_eq_true] at hc
    obtain ⟨h5, h6⟩ := h4 hc.1
    exact ⟨e, before, h5 ▸ h2, h6 ▸ h3⟩

/-- The only change is that a column is widened and becomes optional. -/
example : mergeSchema { compatible := fun a b => a == b, promotes := fun a b => a == 0 && b == 2, order := fun l => l } 1
    [.mk 1 "a" true false false (.prim 0)] [.mk 0 "a" false false false (.prim 2)]
      = some [.mk 1 "a" false false false (.prim 2)] := by rfl

/-! ### C144 -/

/-- A new table has the ids 1, 2, 3, and so on, in the order of its fields. -/
theorem C144_numbering (fs : List Fld) (k : Nat) :
    idsOf (assignSchema fs k).1 = List.range' k (idsOf (assignSchema fs k).1).length := by
  have h := (assignSchema_ids fs k).2
  rw [h]
  unfold fresh
  rw [List.length_range']

/-- The type is a list or a map. -/
def Spec.collection : Ty → Bool
  | .list _ => true
  | .map _ _ => true
  | _ => false

mutual
/-- No list or map lies directly in a list or map. -/
def Spec.flat : Ty → Prop
  | .prim _ => True
  | .struct fs => Spec.flatFlds fs
  | .list (.mk _ _ _ _ _ t) => Spec.collection t = false ∧ Spec.flat t
  | .map (.mk _ _ _ _ _ t) (.mk _ _ _ _ _ u) =>
    (Spec.collection t = false ∧ Spec.flat t) ∧ (Spec.collection u = false ∧ Spec.flat u)
def Spec.flatFlds : Flds → Prop
  | .nil => True
  | .cons (.mk _ _ _ _ _ t) rest => Spec.flat t ∧ Spec.flatFlds rest
end

open Spec (flat flatFlds collection)

mutual
theorem indexed_ids : ∀ fs : Flds, flatFlds fs → indexed fs = idsFlds fs
  | .nil, _ => by rw [indexed, idsFlds]
  | .cons (.mk i n r a w t) rest, h => by
    rw [flatFlds] at h
    rw [indexed, idsFlds, indexedFld_ids (.mk i n r a w t) h.1, indexed_ids rest h.2]
theorem indexedFld_ids : ∀ f : Fld, flat f.ty → indexedFld f = ids f
  | .mk i n r a w (.prim _), _ => by rw [indexedFld, ids, idsTy]
  | .mk i n r a w (.struct fs), h => by
    rw [Fld.ty, flat] at h
    rw [indexedFld, ids, idsTy, indexed_ids fs h]
  | .mk i n r a w (.list (.mk j m s b v t)), h => by
    rw [Fld.ty, flat] at h
    rw [indexedFld, ids, idsTy, indexedPart_ids (.mk j m s b v t) h.1 h.2]
  | .mk i n r a w (.map (.mk j m s b v t) (.mk j' m' s' b' v' t')), h => by
    rw [Fld.ty, flat] at h
    rw [indexedFld, ids, idsTy, indexedPart_ids (.mk j m s b v t) h.1.1 h.1.2,
      indexedPart_ids (.mk j' m' s' b' v' t') h.2.1 h.2.2]
theorem indexedPart_ids : ∀ f : Fld, collection f.ty = false → flat f.ty → indexedPart f = ids f
  | .mk i n r a w (.prim _), _, _ => by rw [indexedPart, ids, idsTy]; intro fs h; cases h
  | .mk i n r a w (.struct fs), _, h => by
    rw [Fld.ty, flat] at h
    rw [indexedPart, ids, idsTy, indexed_ids fs h]
  | .mk i n r a w (.list _), h, _ => by cases h
  | .mk i n r a w (.map _ _), h, _ => by cases h
end

theorem le_foldl_max : ∀ (l : List Nat) (m : Nat), m ≤ l.foldl max m ∧ ∀ x ∈ l, x ≤ l.foldl max m
  | [], m => by simp
  | a :: l, m => by
    obtain ⟨h1, h2⟩ := le_foldl_max l (max m a)
    rw [List.foldl_cons]
    refine ⟨by omega, fun x hx => ?_⟩
    rcases List.mem_cons.1 hx with rfl | hx
    · omega
    · exact h2 x hx

/-- If no list or map lies directly in a list or map, the recorded last column id bounds all ids. -/
theorem C144_bound_partial {fs : List Fld} (h : flatFlds (.ofList fs)) : ∀ i ∈ idsOf fs, i ≤ highest fs := by
  intro i hi
  unfold highest
  rw [indexed_ids _ h, idsFlds_toList, toList_ofList]
  exact (le_foldl_max _ 0).2 i hi

/-- Otherwise it may not: a table with a column `array<array<int>>` uses the ids 1, 2 and 3 but records 2 as the
last, so that the column that is added next gets the id 3 of the inner element. -/
theorem C144_nested_list (same : E.compatible 0 0 = true) (plain : E.promotes 0 0 = false) :
    let int : Ty := .prim 0
    let input : List Fld := [.mk 0 "a" false false false (.list (.mk 0 "element" false false false
      (.list (.mk 0 "element" false false false int))))]
    let table := (assignSchema input 1).1
    idsOf table = [1, 2, 3] ∧ highest table = 2
    ∧ ∃ merged, mergeSchema E (highest table) table (input ++ [.mk 0 "b" false false false int]) = some merged
        ∧ idsOf merged = [1, 2, 3, 3]
        ∧ idIn merged "a" [.element, .element] = some 3 ∧ idIn merged "b" [] = some 3 := by
  refine ⟨by rfl, by rfl, ?_⟩
  refine ⟨[.mk 1 "a" false false false (.list (.mk 2 "element" false false false
      (.list (.mk 3 "element" false false false (.prim 0))))), .mk 3 "b" false false false (.prim 0)], ?_, by rfl,
      by rfl, by rfl⟩
  simp [mergeSchema, mergeTop, assignSchema, assignFld, assignTy, mergeFld, Fld.name, Fld.ty, Ty.asList, Ty.asPrim,
    same, plain, highest, indexed, indexedFld, indexedPart, Flds.ofList, addNew, buildFld, Fld.optionalNew,
    Fld.relax, Fld.required]

/-! ### C145 -/

/-- Replacing a plain column by a struct leaves all its fields with the id 0 (or the ids that the input carries). -/
theorem C145_struct_over_plain (last i n : Nat) (name : String) (r a w : Bool) (cs : Flds) :
    overwriteSchema last [.mk i name r a w (.prim n)] [.mk 0 name r a w (.struct cs)]
      = [.mk i name r a w (.struct cs)] := by
  simp [overwriteSchema, Flds.ofList, reuseFlds, reuseFld, reuseTy, Ty.asStruct, Fld.name, Fld.id, Fld.ty, Flds.toList]

/-- A map value that is replaced by a value of another kind gets new ids, at every depth. -/
theorem C145_map_value (last i j l n m : Nat) (name : String) (r a w : Bool) (key value : Fld) (cs : Flds)
    (plain_key : key = .mk j "key" true false false (.prim n)) (plain_value : value = .mk l "value" r a w (.prim m)) :
    overwriteSchema last [.mk i name r a w (.map key value)]
        [.mk 0 name r a w (.map key (.mk 0 "value" r a w (.struct cs)))]
      = [.mk i name r a w (.map key (.mk (last + 1) "value" r a w (.struct (assignFlds cs (last + 2)).1)))] := by
  subst plain_key plain_value
  simp [overwriteSchema, Flds.ofList, reuseFlds, reuseFld, reuseTy, reusePart, Ty.asMap, Fld.name, Fld.id, Fld.ty, Flds.toList,
    Ty.sameKind, assignFld, assignTy]

/-- Two fields with the same id. -/
example : idsOf (overwriteSchema 1 [.mk 1 "a" false false false (.prim 0)]
    [.mk 0 "a" false false false (.struct (.cons (.mk 0 "x" false false false (.prim 0))
      (.cons (.mk 0 "y" false false false (.prim 0)) .nil)))]) = [1, 0, 0] := by
  rfl

/-- All of one list is in another, as often. -/
def Spec.within (a b : List Nat) : Prop := ∃ dropped, (a ++ dropped).Perm b

open Spec (within)

theorem within_append {a b c d : List Nat} (h1 : within a b) (h2 : within c d) : within (a ++ c) (b ++ d) := by
  obtain ⟨x, hx⟩ := h1
  obtain ⟨y, hy⟩ := h2
  refine ⟨x ++ y, ?_⟩
  refine List.Perm.trans ?_ (hx.append hy)
  rw [List.append_assoc, List.append_assoc]
  refine List.Perm.append_left a ?_
  rw [← List.append_assoc, ← List.append_assoc]
  exact List.Perm.append_right y List.perm_append_comm

theorem within_perm {a b c : List Nat} (h : within a b) (p : b.Perm c) : within a c := by
  obtain ⟨x, hx⟩ := h
  exact ⟨x, hx.trans p⟩

theorem within_right (a b : List Nat) : within b (a ++ b) := ⟨a, List.perm_append_comm⟩

theorem within_cons {a b : List Nat} (i : Nat) (h : within a b) : within (i :: a) (i :: b) := by
  obtain ⟨x, hx⟩ := h
  exact ⟨x, hx.cons i⟩

/-- The names of fields. -/
def Spec.names (fs : Flds) : List String := fs.toList.map Fld.name

mutual
/-- Where a new field takes the place of an old one, a struct, list or map replaces the same; names are unique in the
new structs. -/
def Spec.keeps : Ty → Ty → Prop
  | .prim _, _ => True
  | .struct cs, old => (Spec.names cs).Nodup ∧ ∃ es, old.asStruct = some es ∧ Spec.keepsFlds cs es
  | .list (.mk _ _ _ _ _ t), old => ∃ e, old.asList = some e ∧ Spec.keeps t e.ty
  | .map (.mk _ _ _ _ _ t) (.mk _ _ _ _ _ u), old =>
    ∃ p, old.asMap = some p ∧ (p.1.ty.sameKind t = true → Spec.keeps t p.1.ty)
      ∧ (p.2.ty.sameKind u = true → Spec.keeps u p.2.ty)
def Spec.keepsFlds : Flds → List Fld → Prop
  | .nil, _ => True
  | .cons (.mk _ n _ _ _ t) rest, es =>
    (∀ e, (es.find? fun f => decide (f.name = n)) = some e → Spec.keeps t e.ty) ∧ Spec.keepsFlds rest es
end

open Spec (keeps keepsFlds names)

theorem reuseFlds_congr : ∀ (cs : Flds) (es es' : List Fld) (k : Nat),
    (∀ n ∈ names cs, (es.find? fun f => decide (f.name = n)) = es'.find? fun f => decide (f.name = n)) →
    reuseFlds cs es k = reuseFlds cs es' k ∧ (keepsFlds cs es → keepsFlds cs es')
  | .nil, es, es', k, _ => by simp [reuseFlds, keepsFlds]
  | .cons (.mk i n r a w t) rest, es, es', k, h => by
    have h0 := h n (by simp [names, Flds.toList, Fld.name])
    have hr := fun k => reuseFlds_congr rest es es' k (fun n hn => h n (by
      simp only [names, Flds.toList, List.map_cons, List.mem_cons]; exact Or.inr hn))
    constructor
    · rw [reuseFlds, reuseFlds, Fld.name, h0]
      cases es'.find? (fun f => decide (f.name = n)) with
      | none => rw [Option.elim_none, Option.elim_none, (hr _).1]
      | some e => rw [Option.elim_some, Option.elim_some, (hr _).1]
    · rw [keepsFlds, keepsFlds, h0]
      exact fun hk => ⟨hk.1, (hr 0).2 hk.2⟩

mutual
theorem reuseTy_ids : ∀ (t old : Ty) (k : Nat), keeps t old →
    k ≤ (reuseTy t old k).2 ∧ within (idsTy (reuseTy t old k).1) (idsTy old ++ fresh k (reuseTy t old k).2)
  | .prim n, old, k, _ => by
    rw [reuseTy, idsTy]
    exact ⟨Nat.le_refl _, ⟨_, List.Perm.refl _⟩⟩
  | .struct cs, old, k, h => by
    rw [keeps] at h
    obtain ⟨hn, es, hes, hk⟩ := h
    rw [reuseTy, hes, Option.elim_some]
    have := reuseFlds_ids cs es k hn hk
    have ho : idsTy old = idsOf es := by
      cases old with
      | struct fs => cases hes; rw [idsTy, idsFlds_toList]
      | prim _ => cases hes
      | list _ => cases hes
      | map _ _ => cases hes
    rw [idsTy, ho]
    exact this
  | .list (.mk i n r a w t), old, k, h => by
    rw [keeps] at h
    obtain ⟨e, he, hk⟩ := h
    rw [reuseTy, he, Option.elim_some]
    have := reuseTy_ids t e.ty k hk
    have ho : idsTy old = ids e := by
      cases old with
      | list x => cases he; rw [idsTy]
      | prim _ => cases he
      | struct _ => cases he
      | map _ _ => cases he
    rw [idsTy, ho, reuseFld, ids, ids_eq e]
    exact ⟨this.1, within_cons _ this.2⟩
  | .map (.mk i n r a w t) (.mk i' n' r' a' w' u), old, k, h => by
    rw [keeps] at h
    obtain ⟨p, hp, hk1, hk2⟩ := h
    rw [reuseTy, hp, Option.elim_some]
    have part1 : ∀ k, k ≤ (reusePart (.mk i n r a w t) p.1 k).2
        ∧ within (ids (reusePart (.mk i n r a w t) p.1 k).1)
            (ids p.1 ++ fresh k (reusePart (.mk i n r a w t) p.1 k).2) := by
      intro k
      rw [reusePart]
      split
      · next hs =>
        have := reuseTy_ids t p.1.ty k (hk1 hs)
        rw [ids, ids_eq p.1]
        exact ⟨this.1, within_cons _ this.2⟩
      · have := assignFld_ids (.mk i n r a w t) k
        exact ⟨by omega, by rw [this.2]; exact within_right _ _⟩
    have part2 : ∀ k, k ≤ (reusePart (.mk i' n' r' a' w' u) p.2 k).2
        ∧ within (ids (reusePart (.mk i' n' r' a' w' u) p.2 k).1)
            (ids p.2 ++ fresh k (reusePart (.mk i' n' r' a' w' u) p.2 k).2) := by
      intro k
      rw [reusePart]
      split
      · next hs =>
        have := reuseTy_ids u p.2.ty k (hk2 hs)
        rw [ids, ids_eq p.2]
        exact ⟨this.1, within_cons _ this.2⟩
      · have := assignFld_ids (.mk i' n' r' a' w' u) k
        exact ⟨by omega, by rw [this.2]; exact within_right _ _⟩
    have h1 := part1 k
    have h2 := part2 (reusePart (.mk i n r a w t) p.1 k).2
    have ho : idsTy old = ids p.1 ++ ids p.2 := by
      cases old with
      | map x y => cases hp; rw [idsTy]
      | prim _ => cases hp
      | struct _ => cases hp
      | list _ => cases hp
    rw [idsTy, ho]
    dsimp only
    refine ⟨Nat.le_trans h1.1 h2.1, within_perm (within_append h1.2 h2.2) ?_⟩
    rw [← fresh_append h1.1 h2.1, List.append_assoc, List.append_assoc]
    refine List.Perm.append_left _ ?_
    rw [← List.append_assoc, ← List.append_assoc]
    exact List.Perm.append_right _ List.perm_append_comm
theorem reuseFlds_ids : ∀ (cs : Flds) (es : List Fld) (k : Nat), (names cs).Nodup → keepsFlds cs es →
    k ≤ (reuseFlds cs es k).2
      ∧ within (idsFlds (reuseFlds cs es k).1) (idsOf es ++ fresh k (reuseFlds cs es k).2)
  | .nil, es, k, _, _ => by
    rw [reuseFlds, idsFlds]
    exact ⟨Nat.le_refl _, ⟨_, List.Perm.refl _⟩⟩
  | .cons (.mk i n r a w t) rest, es, k, hn, hk => by
    rw [keepsFlds] at hk
    have hn' : n ∉ names rest ∧ (names rest).Nodup := by
      simpa [names, Flds.toList, Fld.name] using hn
    rw [reuseFlds, Fld.name]
    cases hf : es.find? (fun f => decide (f.name = n)) with
    | none =>
      rw [Option.elim_none]
      have h1 := assignFld_ids (.mk i n r a w t) k
      have h2 := reuseFlds_ids rest es (assignFld (.mk i n r a w t) k).2 hn'.2 hk.2
      rw [idsFlds, h1.2]
      dsimp only
      refine ⟨by omega, within_perm (within_append ⟨[], by rw [List.append_nil]⟩ h2.2) ?_⟩
      rw [← fresh_append (Nat.le_of_lt h1.1) h2.1, ← List.append_assoc, ← List.append_assoc]
      exact List.Perm.append_right _ List.perm_append_comm
    | some e =>
      rw [Option.elim_some]
      have h1 := reuseTy_ids t e.ty k (hk.1 e hf)
      have hcong := fun k => reuseFlds_congr rest es (es.eraseP fun f => decide (f.name = n)) k (fun m hm =>
        (find_eraseP_ne (n := m) (n' := n) (fun x => hn'.1 (by rw [← x]; exact hm)) es).symm)
      have h2 := reuseFlds_ids rest (es.eraseP fun f => decide (f.name = n)) (reuseTy t e.ty k).2 hn'.2
        ((hcong 0).2 hk.2)
      rw [← (hcong _).1] at h2
      rw [reuseFld, idsFlds, ids]
      dsimp only
      refine ⟨Nat.le_trans h1.1 h2.1, within_perm (within_append (within_cons e.id h1.2) h2.2) ?_⟩
      rw [← fresh_append h1.1 h2.1]
      refine List.Perm.trans ?_ (List.Perm.append_right _ (idsOf_perm (find_eraseP hf)).symm)
      rw [idsOf_cons, ids_eq e, ← List.cons_append, List.append_assoc, List.append_assoc]
      refine List.Perm.append_left _ ?_
      rw [← List.append_assoc, ← List.append_assoc]
      exact List.Perm.append_right _ List.perm_append_comm
end

/-- Where columns that keep their names keep their kinds, no id is given twice, and every id is an old one or
above the last. -/
theorem C145_unique_partial {last : Nat} {existing input : List Fld} (distinct : (input.map Fld.name).Nodup)
    (kinds : keepsFlds (.ofList input) existing) (unique : (idsOf existing).Nodup)
    (bound : ∀ i ∈ idsOf existing, i ≤ last) :
    (idsOf (overwriteSchema last existing input)).Nodup
    ∧ ∀ i ∈ idsOf (overwriteSchema last existing input), i ∈ idsOf existing ∨ last < i := by
  have h := (reuseFlds_ids (.ofList input) existing (last + 1) (by rw [names, toList_ofList]; exact distinct) kinds).2
  obtain ⟨d, hd⟩ := h
  unfold overwriteSchema
  rw [← idsFlds_toList]
  refine ⟨?_, fun i hi => ?_⟩
  · have : ((idsFlds (reuseFlds (.ofList input) existing (last + 1)).1) ++ d).Nodup := by
      rw [hd.nodup_iff, List.nodup_append]
      refine ⟨unique, List.nodup_range', fun a ha b hb => ?_⟩
      have h1 := bound a ha
      unfold fresh at hb
      rw [List.mem_range'_1] at hb
      omega
    exact (List.nodup_append.1 this).1
  · have := hd.mem_iff.1 (List.mem_append_left d hi)
    rcases List.mem_append.1 this with h | h
    · exact Or.inl h
    · unfold fresh at h
      rw [List.mem_range'_1] at h
      right; omega

mutual
theorem reuseTy_mono : ∀ (t old : Ty) (k : Nat), k ≤ (reuseTy t old k).2
  | .prim n, old, k => by rw [reuseTy]
  | .struct cs, old, k => by
    rw [reuseTy]
    cases old.asStruct with
    | none => exact Nat.le_refl _
    | some es => exact reuseFlds_mono cs es k
  | .list (.mk i n r a w t), old, k => by
    rw [reuseTy]
    cases old.asList with
    | none => exact Nat.le_refl _
    | some e =>
      rw [Option.elim_some, reuseFld]
      exact reuseTy_mono t e.ty k
  | .map (.mk i n r a w t) (.mk i' n' r' a' w' u), old, k => by
    rw [reuseTy]
    cases old.asMap with
    | none => exact Nat.le_refl _
    | some p =>
      rw [Option.elim_some]
      have h1 : ∀ k, k ≤ (reusePart (.mk i n r a w t) p.1 k).2 := by
        intro k
        rw [reusePart]
        split
        · exact reuseTy_mono t p.1.ty k
        · exact Nat.le_of_lt (assignFld_ids _ k).1
      have h2 : ∀ k, k ≤ (reusePart (.mk i' n' r' a' w' u) p.2 k).2 := by
        intro k
        rw [reusePart]
        split
        · exact reuseTy_mono u p.2.ty k
        · exact Nat.le_of_lt (assignFld_ids _ k).1
      exact Nat.le_trans (h1 k) (h2 _)
theorem reuseFlds_mono : ∀ (cs : Flds) (es : List Fld) (k : Nat), k ≤ (reuseFlds cs es k).2
  | .nil, es, k => by rw [reuseFlds]
  | .cons (.mk i n r a w t) rest, es, k => by
    rw [reuseFlds, Fld.name]
    cases es.find? (fun f => decide (f.name = n)) with
    | none => exact Nat.le_trans (Nat.le_of_lt (assignFld_ids _ k).1) (reuseFlds_mono rest es _)
    | some e =>
      rw [Option.elim_some, reuseFld]
      exact Nat.le_trans (reuseTy_mono t e.ty k) (reuseFlds_mono rest es _)
end

/-- A column keeps the id of the column of the same name; without one it gets an id above the last. -/
theorem C145_columns (last : Nat) (existing : List Fld) {input : List Fld} {c : Fld} (column : c ∈ input) :
    ∃ f ∈ overwriteSchema last existing input, f.name = c.name
      ∧ (∀ e, (existing.find? fun f => decide (f.name = c.name)) = some e → f.id = e.id)
      ∧ ((∀ e ∈ existing, e.name ≠ c.name) → last < f.id) := by
  have key : ∀ (cs : List Fld) (k : Nat), last < k → c ∈ cs →
      ∃ f ∈ (reuseFlds (.ofList cs) existing k).1.toList, f.name = c.name
        ∧ (∀ e, (existing.find? fun f => decide (f.name = c.name)) = some e → f.id = e.id)
        ∧ ((∀ e ∈ existing, e.name ≠ c.name) → last < f.id) := by
    intro cs
    induction cs with
    | nil => intro k _ h; cases h
    | cons x rest ih =>
      intro k hk hc
      obtain ⟨i, n, r, a, w, t⟩ := x
      rw [Flds.ofList, reuseFlds, Fld.name]
      cases hf : existing.find? (fun f => decide (f.name = n)) with
      | none =>
        rw [Option.elim_none, Flds.toList]
        rcases List.mem_cons.1 hc with rfl | hc
        · refine ⟨_, List.mem_cons_self, rfl, fun e he => ?_, fun _ => hk⟩
          rw [Fld.name, hf] at he
          cases he
        · obtain ⟨f, hfm, h⟩ := ih _ (Nat.lt_trans hk (assignFld_ids (.mk i n r a w t) k).1) hc
          exact ⟨f, List.mem_cons_of_mem _ hfm, h⟩
      | some e0 =>
        rw [Option.elim_some, Flds.toList]
        rcases List.mem_cons.1 hc with rfl | hc
        · refine ⟨_, List.mem_cons_self, rfl, fun e he => ?_, fun hno => ?_⟩
          · rw [Fld.name, hf] at he
            cases he
            rfl
          · have hm := List.mem_of_find?_eq_some hf
            have hn0 : e0.name = n := by simpa using List.find?_some hf
            exact absurd hn0 (hno e0 hm)
        · rw [reuseFld]
          obtain ⟨f, hfm, h⟩ := ih _ (Nat.lt_of_lt_of_le hk (reuseTy_mono t e0.ty k)) hc
          exact ⟨f, List.mem_cons_of_mem _ hfm, h⟩
  exact key input (last + 1) (by omega) column

/-! ### Examples -/

/-- A table `a struct<x, y>, m map<int, struct<v>>` to which `b` and fields in `a` and `m` are added. -/
def Spec.table : List Fld :=
  [.mk 1 "a" true false false (.struct (.cons (.mk 2 "x" false false false (.prim 0))
      (.cons (.mk 3 "y" false false false (.prim 1)) .nil))),
   .mk 4 "m" false false false (.map (.mk 5 "key" true false false (.prim 0))
      (.mk 6 "value" false false false (.struct (.cons (.mk 7 "v" false false false (.prim 0)) .nil))))]
def Spec.newData : List Fld :=
  [.mk 0 "b" true false false (.list (.mk 0 "element" false false false (.prim 0))),
   .mk 0 "m" false false false (.map (.mk 0 "key" true false false (.prim 0))
      (.mk 0 "value" false false false (.struct (.cons (.mk 0 "w" false false false (.prim 0))
        (.cons (.mk 0 "v" false false false (.prim 0)) .nil))))),
   .mk 0 "a" false false false (.struct (.cons (.mk 0 "z" false false false (.prim 0))
      (.cons (.mk 0 "x" false false false (.prim 2)) .nil)))]
/-- Equal types are compatible, 0 can be widened to 2, and the hash map gives back its values as they came. -/
def Spec.env : Env := { compatible := fun a b => a == b, promotes := fun a b => a == 0 && b == 2, order := fun l => l }

example : (∀ l, (Spec.env.order l).Perm l)
    ∧ (∀ (l : List Fld) (n : String), ((Spec.env.order l).find? fun f => decide (f.name = n)) = l.find? fun f => decide (f.name = n))
    ∧ (idsOf Spec.table).Nodup ∧ (∀ i ∈ idsOf Spec.table, i ≤ 7) ∧ highest Spec.table = 7
    ∧ flatFlds (.ofList Spec.table) :=
  ⟨fun _ => List.Perm.refl _, fun _ _ => rfl, by decide, by decide, by rfl, by
    simp [Spec.table, Flds.ofList, flatFlds, flat, collection]⟩

example : (mergeSchema Spec.env 7 Spec.table Spec.newData).map idsOf = some [1, 8, 2, 3, 4, 5, 6, 9, 7, 10, 11] := by
  decide +kernel

/-- A required column without a default must be in the input. -/
example : (mergeSchema Spec.env 7 Spec.table (Spec.newData.take 2)).isNone = true := by decide +kernel

example : idsOf (overwriteSchema 7 Spec.table Spec.newData) = [8, 9, 4, 5, 6, 10, 7, 1, 11, 2]
    ∧ (Spec.newData.map Fld.name).Nodup ∧ keepsFlds (.ofList Spec.newData) Spec.table := by
  refine ⟨by decide +kernel, by decide, ?_⟩
  simp [Spec.newData, Spec.table, Flds.ofList, keepsFlds, keeps, Fld.name, Fld.ty, Ty.asMap, Ty.asStruct, names,
    Flds.toList]

example : idsOf (assignSchema Spec.newData 1).1 = [1, 2, 3, 4, 5, 6, 7, 8, 9, 10] := by decide +kernel

end Verif.Iceberg.SchemaIds
