import Verif.Iceberg.Catalog
import Verif.Iceberg.ProtocolProps

/-! Property C59: concurrent commits to Iceberg tables of a catalog. -/

namespace Verif.Iceberg.Catalog

open Verif.Iceberg.Protocol (Ops Choice goOn exOps changesOf changesOf_append)
open Verif.Iceberg.Protocol.Spec (applied)
open Verif.Iceberg.Catalog.Spec

variable {M C : Type}

theorem setProc_get (s : St M C) (i j : Nat) (q p : Proc M C) (hp : s.procs[i]? = some p) :
    (setProc s i q).procs[j]? = if j = i then some q else s.procs[j]? := by
  have hi : i < s.procs.length := (List.getElem?_eq_some_iff.1 hp).1
  simp only [setProc, List.getElem?_set]
  by_cases h : j = i
  · subst h
    simp [hi]
  · rw [if_neg h, if_neg fun h' => h h'.symm]

theorem at?_cons (fs : List (Loc × M)) (k l : Loc) (m : M) :
    at? ((k, m) :: fs) l = if k = l then some m else at? fs l := by
  simp only [at?, List.find?_cons]
  by_cases h : k = l
  · simp [h]
  · rw [if_neg h]
    have : (k == l) = false := by simpa using h
    rw [this]

theorem at?_filter (fs : List (Loc × M)) (k l : Loc) (h : l ≠ k) :
    at? (fs.filter fun f => f.1 != k) l = at? fs l := by
  simp only [at?]
  congr 1
  induction fs with
  | nil => rfl
  | cons f fs ih =>
    by_cases hf : f.1 = k
    · rw [List.filter_cons_of_neg (by simpa using hf), ih, List.find?_cons_of_neg]
      intro h2
      have : f.1 = l := by simpa using h2
      exact h (this.symm.trans hf)
    · rw [List.filter_cons_of_pos (by simpa using hf)]
      by_cases hl : f.1 = l
      · simp [hl]
      · rw [List.find?_cons_of_neg (by simpa using hl), List.find?_cons_of_neg (by simpa using hl), ih]

theorem at?_mem {fs : List (Loc × M)} {l : Loc} {m : M} (h : at? fs l = some m) :
    (l, m) ∈ fs := by
  simp only [at?, Option.map_eq_some_iff] at h
  obtain ⟨f, hf, rfl⟩ := h
  have h1 := List.mem_of_find?_eq_some hf
  have h2 := List.find?_some hf
  have h3 : f.1 = l := by simpa using h2
  rw [← h3]
  exact h1

/-- The locations the catalog had. -/
def hist (l0 : Loc) (s : St M C) : List Loc := l0 :: s.order.map Prod.snd

/-- The uuid of the file a writer has written and not published. -/
def own (p : Proc M C) : Option Nat :=
  match p.pc with
  | .written _ new => some new.2
  | .conflicted _ new => some new.2
  | .confirmed _ new => some new.2
  | _ => none

/-- What is known of a writer. -/
def PcOk (T : Ops M C) (l0 : Loc) (s : St M C) (i : Nat) (p : Proc M C) : Prop :=
  match p.pc with
  | .start => i ∉ s.order.map Prod.fst
  | .located l => i ∉ s.order.map Prod.fst ∧ l ∈ hist l0 s
  | .loaded l m => i ∉ s.order.map Prod.fst ∧ l ∈ hist l0 s ∧
      ∃ x, at? s.files l = some x ∧ T.apply x p.change = some m
  | .checked l m => i ∉ s.order.map Prod.fst ∧ l ∈ hist l0 s ∧
      ∃ x, at? s.files l = some x ∧ T.apply x p.change = some m
  | .boot l m => i ∉ s.order.map Prod.fst ∧ l ∈ hist l0 s ∧
      ∃ x, at? s.files l = some x ∧ T.apply x p.change = some m
  | .written l new => i ∉ s.order.map Prod.fst ∧ l ∈ hist l0 s ∧ new ∉ hist l0 s ∧
      new.1 = l.1 + 1 ∧ new.2 < s.fresh ∧
      ∃ x y, at? s.files l = some x ∧ T.apply x p.change = some y ∧ at? s.files new = some y
  | .conflicted l new => i ∉ s.order.map Prod.fst ∧ l ∈ hist l0 s ∧ new ∉ hist l0 s ∧
      new.1 = l.1 + 1 ∧ new.2 < s.fresh ∧
      ∃ x y, at? s.files l = some x ∧ T.apply x p.change = some y ∧ at? s.files new = some y
  | .confirmed l new => i ∉ s.order.map Prod.fst ∧ l ∈ hist l0 s ∧ new ∉ hist l0 s ∧
      new.1 = l.1 + 1 ∧ new.2 < s.fresh ∧
      ∃ x y, at? s.files l = some x ∧ T.apply x p.change = some y ∧ at? s.files new = some y
  | .create _ => False
  | .created _ => False
  | .done new => (i, new) ∈ s.order
  | .failed => i ∉ s.order.map Prod.fst
  | .crashed => True

/-- The invariant of C59. -/
structure Inv (T : Ops M C) (l0 : Loc) (m0 : M) (cs : List (C × Option Loc)) (s : St M C) : Prop where
  changes : ∀ (i : Nat) p, s.procs[i]? = some p → cs[i]? = some (p.change, p.planned)
  nodup : (s.order.map Prod.fst).Nodup
  names : ∀ i ∈ s.order.map Prod.fst, i < cs.length
  loc : s.loc = (hist l0 s).getLast?
  versions : ∀ (k : Nat) l, (hist l0 s)[k]? = some l → l.1 = l0.1 + k
  chain : ∀ (k : Nat) l, (hist l0 s)[k]? = some l → ∃ x,
    applied T m0 (changesOf (cs.map Prod.fst) ((s.order.take k).map Prod.fst)) = some x ∧
    at? s.files l = some x
  tags : ∀ f ∈ s.files, f.1.2 < s.fresh
  owns : ∀ (i j : Nat) p q t, s.procs[i]? = some p → s.procs[j]? = some q → own p = some t →
    own q = some t → i = j
  pcs : ∀ (i : Nat) p, s.procs[i]? = some p → PcOk T l0 s i p

theorem own_lt {T : Ops M C} {l0 : Loc} {s : St M C} {i : Nat} {p : Proc M C} {t : Nat}
    (h : PcOk T l0 s i p) (ht : own p = some t) : t < s.fresh := by
  cases hc : p.pc <;> simp only [own, hc] at ht <;> simp only [PcOk, hc] at h
  all_goals first | (simp at ht; done) | skip
  all_goals
    obtain rfl := Option.some.inj ht
    exact h.2.2.2.2.1

/-- Only the writer changes, and draws no uuid. -/
theorem inv_setProc {T : Ops M C} {l0 : Loc} {m0 : M} {cs : List (C × Option Loc)}
    {s : St M C} (hI : Inv T l0 m0 cs s) {i : Nat} {p q : Proc M C}
    (hp : s.procs[i]? = some p) (hc : q.change = p.change) (hc2 : q.planned = p.planned)
    (ho : own q = none ∨ own q = own p) (hq : PcOk T l0 s i q) :
    Inv T l0 m0 cs (setProc s i q) := by
  have hget := fun j => setProc_get s i j q p hp
  refine ⟨?_, hI.nodup, hI.names, hI.loc, hI.versions, hI.chain, hI.tags, ?_, ?_⟩
  · intro j r hr
    rw [hget] at hr
    split_ifs at hr with h
    · obtain rfl := Option.some.inj hr
      subst h
      rw [hc, hc2]
      exact hI.changes j p hp
    · exact hI.changes j r hr
  · intro a b r1 r2 t h1 h2 o1 o2
    rw [hget] at h1 h2
    split_ifs at h1 h2 with e1 e2 e2
    · rw [e1, e2]
    · obtain rfl := Option.some.inj h1
      rcases ho with ho | ho
      · rw [ho] at o1
        simp at o1
      · rw [e1]
        exact hI.owns i b p r2 t hp h2 (ho ▸ o1) o2
    · obtain rfl := Option.some.inj h2
      rcases ho with ho | ho
      · rw [ho] at o2
        simp at o2
      · rw [e2]
        exact hI.owns a i r1 p t h1 hp o1 (ho ▸ o2)
    · exact hI.owns a b r1 r2 t h1 h2 o1 o2
  · intro j r hr
    rw [hget] at hr
    split_ifs at hr with h
    · obtain rfl := Option.some.inj hr
      subst h
      exact hq
    · exact hI.pcs j r hr

theorem retry_ok (T : Ops M C) (l0 : Loc) (s : St M C) (i : Nat) (p : Proc M C)
    (h : i ∉ s.order.map Prod.fst) : PcOk T l0 s i (retry p) ∧ (retry p).change = p.change ∧
      (retry p).planned = p.planned ∧ own (retry p) = none := by
  simp only [retry]
  split_ifs
  · exact ⟨h, rfl, rfl, rfl⟩
  · exact ⟨h, rfl, rfl, rfl⟩

/-- A new file does not disturb the knowledge of a writer. -/
theorem pcOk_put {T : Ops M C} {l0 : Loc} {s s2 : St M C} {k : Loc} {m : M} {j : Nat} {p : Proc M C}
    (h : PcOk T l0 s j p) (hf : s2.files = (k, m) :: s.files) (ho : s2.order = s.order)
    (hfr : s.fresh ≤ s2.fresh) (hk : ∀ l x, at? s.files l = some x → k ≠ l) : PcOk T l0 s2 j p := by
  have hat : ∀ l x, at? s.files l = some x → at? s2.files l = some x := by
    intro l x hx
    rw [hf, at?_cons, if_neg (hk l x hx)]
    exact hx
  have hh : hist l0 s2 = hist l0 s := by simp only [hist, ho]
  cases hc : p.pc <;> simp only [PcOk, hc, ho, hh] at h ⊢
  all_goals first
    | exact h
    | (obtain ⟨h1, h2, x, h3, h4⟩ := h
       exact ⟨h1, h2, x, hat _ _ h3, h4⟩)
    | (obtain ⟨h1, h2, h3, h4, h5, x, y, h6, h7, h8⟩ := h
       exact ⟨h1, h2, h3, h4, by omega, x, y, hat _ _ h6, h7, hat _ _ h8⟩)

/-- The put of a new file. -/
theorem inv_put {T : Ops M C} {l0 : Loc} {m0 : M} {cs : List (C × Option Loc)}
    {s : St M C} (hI : Inv T l0 m0 cs s) {i : Nat} {p q : Proc M C} {l : Loc} {m : M}
    (hp : s.procs[i]? = some p) (hc : q.change = p.change) (hc2 : q.planned = p.planned)
    (hi : i ∉ s.order.map Prod.fst) (hl : l ∈ hist l0 s)
    (hx : ∃ x, at? s.files l = some x ∧ T.apply x p.change = some m)
    (hq : q.pc = .written l (l.1 + 1, s.fresh) ∨ q.pc = .confirmed l (l.1 + 1, s.fresh)) :
    Inv T l0 m0 cs (putNew s i q (l.1 + 1) m) := by
  have hget := fun j => setProc_get s i j q p hp
  have hk : ∀ l' x, at? s.files l' = some x → ((l.1 + 1, s.fresh) : Loc) ≠ l' := by
    intro l' x h1 h2
    have := hI.tags _ (at?_mem h1)
    rw [← h2] at this
    simp at this
  have hq2 : own q = some s.fresh := by
    rcases hq with hq | hq <;> simp only [own, hq]
  have hlt : ∀ (j : Nat) r, s.procs[j]? = some r → own r ≠ some s.fresh := by
    intro j r hr ho
    have := own_lt (hI.pcs j r hr) ho
    omega
  refine ⟨?_, hI.nodup, hI.names, hI.loc, hI.versions, ?_, ?_, ?_, ?_⟩
  · intro j r hr
    simp only [putNew] at hr
    rw [hget] at hr
    split_ifs at hr with h
    · obtain rfl := Option.some.inj hr
      subst h
      rw [hc, hc2]
      exact hI.changes j p hp
    · exact hI.changes j r hr
  · intro k l' hl'
    obtain ⟨x, h1, h2⟩ := hI.chain k l' hl'
    refine ⟨x, h1, ?_⟩
    simp only [putNew]
    rw [at?_cons, if_neg (hk _ _ h2)]
    exact h2
  · intro f hf
    simp only [putNew, List.mem_cons] at hf ⊢
    rcases hf with rfl | hf
    · simp
    · have := hI.tags f hf
      omega
  · intro a b r1 r2 t h1 h2 o1 o2
    simp only [putNew] at h1 h2
    rw [hget] at h1 h2
    split_ifs at h1 h2 with e1 e2 e2
    · rw [e1, e2]
    · obtain rfl := Option.some.inj h1
      rw [hq2] at o1
      obtain rfl := Option.some.inj o1
      exact absurd o2 (hlt b r2 h2)
    · obtain rfl := Option.some.inj h2
      rw [hq2] at o2
      obtain rfl := Option.some.inj o2
      exact absurd o1 (hlt a r1 h1)
    · exact hI.owns a b r1 r2 t h1 h2 o1 o2
  · intro j r hr
    simp only [putNew] at hr
    rw [hget] at hr
    split_ifs at hr with h
    · have hqr := Option.some.inj hr
      subst h
      obtain ⟨x, hx1, hx2⟩ := hx
      have hnew : ((l.1 + 1, s.fresh) : Loc) ∉ hist l0 s := by
        intro hmem
        obtain ⟨k, hk2⟩ := List.getElem?_of_mem hmem
        obtain ⟨y, -, hy⟩ := hI.chain k _ hk2
        exact hk _ _ hy rfl
      have hgoal : j ∉ s.order.map Prod.fst ∧ l ∈ hist l0 s ∧ ((l.1 + 1, s.fresh) : Loc) ∉ hist l0 s ∧
          (l.1 + 1, s.fresh).1 = l.1 + 1 ∧ (l.1 + 1, s.fresh).2 < s.fresh + 1 ∧
          ∃ x y, at? (((l.1 + 1, s.fresh), m) :: s.files) l = some x ∧
            T.apply x q.change = some y ∧
            at? (((l.1 + 1, s.fresh), m) :: s.files) (l.1 + 1, s.fresh) = some y := by
        refine ⟨hi, hl, hnew, rfl, Nat.lt_succ_self _, x, m, ?_, ?_, ?_⟩
        · rw [at?_cons, if_neg (hk _ _ hx1)]
          exact hx1
        · rw [hc]
          exact hx2
        · rw [at?_cons, if_pos rfl]
      rw [← hqr]
      rcases hq with hq | hq
      · simp only [PcOk, hq]
        exact ⟨hgoal.1, hgoal.2.1, hgoal.2.2.1, trivial, hgoal.2.2.2.2⟩
      · simp only [PcOk, hq]
        exact ⟨hgoal.1, hgoal.2.1, hgoal.2.2.1, trivial, hgoal.2.2.2.2⟩
    · exact pcOk_put (k := (l.1 + 1, s.fresh)) (m := m) (hI.pcs j r hr) rfl rfl
        (Nat.le_succ s.fresh) hk

/-- The deletion of the own file. -/
theorem inv_delete {T : Ops M C} {l0 : Loc} {m0 : M} {cs : List (C × Option Loc)}
    {s : St M C} (hI : Inv T l0 m0 cs s) {i : Nat} {p : Proc M C} {l new : Loc}
    (hp : s.procs[i]? = some p) (hpc : p.pc = .conflicted l new) :
    Inv T l0 m0 cs { setProc s i (retry p) with files := s.files.filter fun f => f.1 != new } := by
  have hpo := hI.pcs i p hp
  simp only [PcOk, hpc] at hpo
  obtain ⟨hi, hl, hnew, hv, ht, -⟩ := hpo
  obtain ⟨r1, r2, r3, r4⟩ := retry_ok T l0 s i p hi
  have hJ : Inv T l0 m0 cs (setProc s i (retry p)) := inv_setProc hI hp r2 r3 (Or.inl r4) r1
  have hget := fun j => setProc_get s i j (retry p) p hp
  have hown : own p = some new.2 := by simp only [own, hpc]
  have hat : ∀ l' ∈ hist l0 s, ∀ x, at? s.files l' = some x →
      at? (s.files.filter fun f => f.1 != new) l' = some x := by
    intro l' hl' x hx
    rw [at?_filter _ _ _ (fun h => hnew (by rw [← h]; exact hl'))]
    exact hx
  refine ⟨hJ.changes, hJ.nodup, hJ.names, hJ.loc, hJ.versions, ?_, ?_, hJ.owns, ?_⟩
  · intro k l' hl'
    obtain ⟨x, h1, h2⟩ := hI.chain k l' hl'
    exact ⟨x, h1, hat l' (List.mem_of_getElem? hl') x h2⟩
  · intro f hf
    exact hI.tags f (List.mem_of_mem_filter hf)
  · intro j r hr
    have hold := hJ.pcs j r hr
    have hne : ∀ t, own r = some t → t ≠ new.2 := by
      intro t h1 h2
      simp only at hr
      rw [hget] at hr
      split_ifs at hr with e
      · obtain rfl := Option.some.inj hr
        rw [r4] at h1
        simp at h1
      · exact e (hI.owns j i r p t hr hp h1 (h2 ▸ hown))
    have hat2 : ∀ k : Loc, own r = some k.2 → ∀ x, at? s.files k = some x →
        at? (s.files.filter fun f => f.1 != new) k = some x := by
      intro k hk x hx
      rw [at?_filter _ _ _ (fun h => hne _ hk (by rw [h]))]
      exact hx
    cases hrc : r.pc <;> simp only [PcOk, hrc] at hold ⊢
    all_goals first
      | exact hold
      | (obtain ⟨h1, h2, x, h3, h4⟩ := hold
         exact ⟨h1, h2, x, hat _ h2 _ h3, h4⟩)
      | (obtain ⟨h1, h2, h3, h4, h5, x, y, h6, h7, h8⟩ := hold
         exact ⟨h1, h2, h3, h4, h5, x, y, hat _ h2 _ h6, h7,
           hat2 _ (by simp only [own, hrc]) _ h8⟩)

/-- The catalog takes a new location. -/
theorem inv_take {T : Ops M C} {l0 : Loc} {m0 : M} {cs : List (C × Option Loc)}
    {s : St M C} (hI : Inv T l0 m0 cs s) {i : Nat} {p : Proc M C} {l new : Loc}
    (hp : s.procs[i]? = some p) (hpc : p.pc = .confirmed l new) (hloc : s.loc = some l) :
    Inv T l0 m0 cs (take s i p new) := by
  have hpo := hI.pcs i p hp
  simp only [PcOk, hpc] at hpo
  obtain ⟨hi, hl, hnew, hv, ht, x, y, hx, hxy, hy⟩ := hpo
  have hget := fun j => setProc_get s i j { p with pc := .done new } p hp
  have hcs := hI.changes i p hp
  have hown : own p = some new.2 := by simp only [own, hpc]
  have hlen : (hist l0 s).length = s.order.length + 1 := by simp [hist]
  have hlast : (hist l0 s)[s.order.length]? = some l := by
    have := hI.loc
    rw [hloc, List.getLast?_eq_getElem?, hlen] at this
    exact this.symm
  have hist2 : hist l0 (take s i p new) = hist l0 s ++ [new] := by
    simp [hist, take]
  have hord : (take s i p new).order = s.order ++ [(i, new)] := rfl
  refine ⟨?_, ?_, ?_, ?_, ?_, ?_, hI.tags, ?_, ?_⟩
  · intro j r hr
    simp only [take] at hr
    rw [hget] at hr
    split_ifs at hr with h
    · obtain rfl := Option.some.inj hr
      subst h
      exact hcs
    · exact hI.changes j r hr
  · rw [hord, List.map_append, List.map_singleton, List.nodup_append]
    refine ⟨hI.nodup, by simp, ?_⟩
    intro a ha b hb hab
    simp only [List.mem_singleton] at hb
    subst hb
    subst hab
    exact hi ha
  · intro j hj
    rw [hord, List.map_append, List.map_singleton] at hj
    rcases List.mem_append.1 hj with hj | hj
    · exact hI.names j hj
    · simp only [List.mem_singleton] at hj
      have := (List.getElem?_eq_some_iff.1 hcs).1
      omega
  · rw [hist2]
    simp [take]
  · intro k l' hl'
    rw [hist2] at hl'
    by_cases hk : k < (hist l0 s).length
    · rw [List.getElem?_append_left hk] at hl'
      exact hI.versions k l' hl'
    · rw [List.getElem?_append_right (by omega)] at hl'
      have hk2 : k - (hist l0 s).length = 0 := by
        have := (List.getElem?_eq_some_iff.1 hl').1
        simp at this
        omega
      rw [hk2] at hl'
      simp only [List.getElem?_cons_zero, Option.some.injEq] at hl'
      subst hl'
      have := hI.versions _ l hlast
      omega
  · intro k l' hl'
    rw [hist2] at hl'
    by_cases hk : k < (hist l0 s).length
    · rw [List.getElem?_append_left hk] at hl'
      obtain ⟨z, h1, h2⟩ := hI.chain k l' hl'
      refine ⟨z, ?_, h2⟩
      rw [hord, List.take_append_of_le_length (by omega)]
      exact h1
    · rw [List.getElem?_append_right (by omega)] at hl'
      have hk2 : k - (hist l0 s).length = 0 := by
        have := (List.getElem?_eq_some_iff.1 hl').1
        simp at this
        omega
      rw [hk2] at hl'
      simp only [List.getElem?_cons_zero, Option.some.injEq] at hl'
      subst hl'
      refine ⟨y, ?_, hy⟩
      obtain ⟨z, h1, h2⟩ := hI.chain _ l hlast
      rw [hx] at h2
      obtain rfl := Option.some.inj h2
      rw [List.take_length] at h1
      rw [hord, List.take_of_length_le (by simp; omega), List.map_append, List.map_singleton,
        changesOf_append _ _ _ p.change (by simp [hcs]), Protocol.applied_append, h1]
      simpa [applied] using hxy
  · intro a b r1 r2 t h1 h2 o1 o2
    simp only [take] at h1 h2
    rw [hget] at h1 h2
    split_ifs at h1 h2 with e1 e2 e2
    · rw [e1, e2]
    · obtain rfl := Option.some.inj h1
      simp [own] at o1
    · obtain rfl := Option.some.inj h2
      simp [own] at o2
    · exact hI.owns a b r1 r2 t h1 h2 o1 o2
  · intro j r hr
    simp only [take] at hr
    rw [hget] at hr
    split_ifs at hr with e
    · obtain rfl := Option.some.inj hr
      subst e
      simp only [PcOk]
      rw [hord]
      simp
    · have hold := hI.pcs j r hr
      have hnin : j ∉ s.order.map Prod.fst → j ∉ (s.order ++ [(i, new)]).map Prod.fst := by
        intro h1 h2
        rw [List.map_append, List.map_singleton] at h2
        rcases List.mem_append.1 h2 with h2 | h2
        · exact h1 h2
        · exact e (by simpa using h2)
      have hmem : ∀ k, k ∈ hist l0 s → k ∈ hist l0 s ++ [new] := by
        intro k hk
        simp [hk]
      have hnew2 : ∀ k : Loc, own r = some k.2 → k ∉ hist l0 s → k ∉ hist l0 s ++ [new] := by
        intro k h1 h2 h3
        rcases List.mem_append.1 h3 with h3 | h3
        · exact h2 h3
        · have : k = new := by simpa using h3
          subst this
          exact e (hI.owns j i r p _ hr hp h1 hown)
      have hfiles : (take s i p new).files = s.files := rfl
      have hfresh : (take s i p new).fresh = s.fresh := rfl
      cases hrc : r.pc <;> simp only [PcOk, hrc, hord, hist2, hfiles, hfresh] at hold ⊢
      all_goals first
        | exact hnin hold
        | exact hold
        | (exact ⟨hnin hold.1, hmem _ hold.2⟩)
        | (obtain ⟨h1, h2, h3⟩ := hold
           exact ⟨hnin h1, hmem _ h2, h3⟩)
        | (obtain ⟨h1, h2, h3, h4⟩ := hold
           exact ⟨hnin h1, hmem _ h2, hnew2 _ (by simp only [own, hrc]) h3, h4⟩)
        | (rw [List.mem_append]; exact Or.inl hold)

theorem inv_step {T : Ops M C} {l0 : Loc} {m0 : M} {cs : List (C × Option Loc)}
    (hplan : ∀ c ∈ cs, c.2 = none ∨ c.2 = some l0)
    {s : St M C} (hI : Inv T l0 m0 cs s) (e : Nat × Choice) :
    Inv T l0 m0 cs (step T s e) := by
  obtain ⟨i, ch⟩ := e
  simp only [step]
  cases hp : s.procs[i]? with
  | none => exact hI
  | some p =>
    simp only
    have hpo := hI.pcs i p hp
    split_ifs with hch
    · exact inv_setProc hI hp rfl rfl (Or.inl rfl) (by simp only [PcOk])
    · cases hpc : p.pc with
      | start =>
        simp only [PcOk, hpc] at hpo
        simp only [advance, hpc]
        have hne : hist l0 s ≠ [] := by simp [hist]
        have hb : ∃ l, base s p = some l ∧ l ∈ hist l0 s := by
          have hl : ∃ l, s.loc = some l ∧ l ∈ hist l0 s := by
            rw [hI.loc]
            exact ⟨_, List.getLast?_eq_some_getLast hne, List.getLast_mem hne⟩
          simp only [base]
          split_ifs
          · rcases hplan _ (List.mem_of_getElem? (hI.changes i p hp)) with h | h
            · simp only at h
              rw [h]
              simpa using hl
            · simp only at h
              rw [h]
              exact ⟨l0, rfl, by simp [hist]⟩
          · exact hl
        obtain ⟨l, hl1, hl2⟩ := hb
        simp only [afterBase, hl1]
        exact inv_setProc hI hp rfl rfl (Or.inl rfl) (by simpa only [PcOk] using ⟨hpo, hl2⟩)
      | located l =>
        simp only [PcOk, hpc] at hpo
        simp only [advance, hpc]
        cases hx : at? s.files l with
        | none =>
          simp only [afterLoad]
          exact inv_setProc hI hp rfl rfl (Or.inl rfl) (by simpa only [PcOk] using hpo.1)
        | some x =>
          simp only [afterLoad]
          cases ha : T.apply x p.change with
          | none => exact inv_setProc hI hp rfl rfl (Or.inl rfl) (by simpa only [PcOk] using hpo.1)
          | some m' =>
            simp only
            split_ifs
            · exact inv_setProc hI hp rfl rfl (Or.inl rfl)
                (by simpa only [PcOk] using ⟨hpo.1, hpo.2, x, hx, ha⟩)
            · exact inv_setProc hI hp rfl rfl (Or.inl rfl)
                (by simpa only [PcOk] using ⟨hpo.1, hpo.2, x, hx, ha⟩)
      | loaded l m =>
        simp only [PcOk, hpc] at hpo
        simp only [advance, hpc]
        split_ifs
        · exact inv_setProc hI hp rfl rfl (Or.inl rfl) (by simpa only [PcOk] using hpo)
        · obtain ⟨r1, r2, r3, r4⟩ := retry_ok T l0 s i p hpo.1
          exact inv_setProc hI hp r2 r3 (Or.inl r4) r1
      | checked l m =>
        simp only [PcOk, hpc] at hpo
        simp only [advance, hpc]
        obtain ⟨h1, h2, h3⟩ := hpo
        exact inv_put hI hp rfl rfl h1 h2 h3 (Or.inl rfl)
      | boot l m =>
        simp only [PcOk, hpc] at hpo
        simp only [advance, hpc]
        obtain ⟨h1, h2, h3⟩ := hpo
        exact inv_put hI hp rfl rfl h1 h2 h3 (Or.inr rfl)
      | written l new =>
        simp only [PcOk, hpc] at hpo
        simp only [advance, hpc]
        split_ifs
        · exact inv_setProc hI hp rfl rfl (Or.inr (by simp only [own, hpc]))
            (by simpa only [PcOk] using hpo)
        · exact inv_setProc hI hp rfl rfl (Or.inr (by simp only [own, hpc]))
            (by simpa only [PcOk] using hpo)
      | conflicted l new =>
        simp only [advance, hpc]
        exact inv_delete hI hp hpc
      | confirmed l new =>
        simp only [advance, hpc]
        split_ifs with hloc
        · exact inv_take hI hp hpc hloc
        · simp only [PcOk, hpc] at hpo
          exact inv_setProc hI hp rfl rfl (Or.inl rfl) (by simpa only [PcOk] using hpo.1)
      | create m => simp only [PcOk, hpc] at hpo
      | created m => simp only [PcOk, hpc] at hpo
      | done v => simp only [advance, hpc]; exact hI
      | failed => simp only [advance, hpc]; exact hI
      | crashed => simp only [advance, hpc]; exact hI

theorem inv_init (T : Ops M C) {files : List (Loc × M)} {l0 : Loc} {fresh : Nat} {m0 : M}
    {cs : List (C × Option Loc)} (h : StartsAt files l0 fresh m0 cs) :
    Inv T l0 m0 cs (init files (some l0) fresh cs) := by
  obtain ⟨h1, h2, h3⟩ := h
  have hget : ∀ (i : Nat) p, (init files (some l0) fresh cs).procs[i]? = some p →
      cs[i]? = some (p.change, p.planned) ∧ p.pc = .start := by
    intro i p hp
    simp only [init, List.getElem?_map, Option.map_eq_some_iff] at hp
    obtain ⟨c, hc, rfl⟩ := hp
    exact ⟨hc, rfl⟩
  have hh : hist l0 (init files (some l0) fresh cs) = [l0] := rfl
  refine ⟨fun i p hp => (hget i p hp).1, by simp [init], by simp [init], rfl, ?_, ?_, h2, ?_, ?_⟩
  · intro k l hl
    rw [hh] at hl
    rcases k with _ | k
    · simp only [List.getElem?_cons_zero, Option.some.injEq] at hl
      subst hl
      rfl
    · simp at hl
  · intro k l hl
    rw [hh] at hl
    rcases k with _ | k
    · simp only [List.getElem?_cons_zero, Option.some.injEq] at hl
      subst hl
      exact ⟨m0, rfl, h1⟩
    · simp at hl
  · intro i j p q t hp _ ho
    simp [own, (hget i p hp).2] at ho
  · intro i p hp
    simp only [PcOk, (hget i p hp).2]
    simp [init]

theorem run_induct (T : Ops M C) {P : St M C → Prop} (es : List (Nat × Choice)) (s : St M C)
    (h0 : P s) (hs : ∀ s e, P s → P (step T s e)) : P (run T s es) := by
  induction es generalizing s with
  | nil => exact h0
  | cons e es ih => exact ih _ (hs s e h0)

/-- **C59**: whatever the interleaving, with crashes, the locations the catalog had are a chain in which
each table is the one before with the change of one writer applied, the file of every one of them is
there, every commit that returned is one of them, once, and no failed commit is. Missing: the creation of
the table, where it is false. -/
theorem C59_commits_are_serialised_partial (T : Ops M C) {files : List (Loc × M)} {l0 : Loc}
    {fresh : Nat} {m0 : M} (cs : List (C × Option Loc)) (h : StartsAt files l0 fresh m0 cs)
    (es : List (Nat × Choice)) :
    ∃ order : List (Nat × Loc), (order.map Prod.fst).Nodup ∧ (∀ o ∈ order, o.1 < cs.length) ∧
      (∀ (k : Nat) l, (l0 :: order.map Prod.snd)[k]? = some l → l.1 = l0.1 + k ∧
        ∃ x, applied T m0 ((order.take k).filterMap fun o => (cs[o.1]?).map Prod.fst) = some x ∧
          at? (run T (init files (some l0) fresh cs) es).files l = some x) ∧
      (run T (init files (some l0) fresh cs) es).loc = (l0 :: order.map Prod.snd).getLast? ∧
      (∀ (i : Nat) p new, (run T (init files (some l0) fresh cs) es).procs[i]? = some p →
        p.pc = .done new → (i, new) ∈ order) ∧
      (∀ (i : Nat) p, (run T (init files (some l0) fresh cs) es).procs[i]? = some p →
        p.pc = .failed → ∀ l, (i, l) ∉ order) := by
  have hI : Inv T l0 m0 cs (run T (init files (some l0) fresh cs) es) :=
    run_induct T es _ (inv_init T h) fun _ e hs => inv_step h.2.2 hs e
  refine ⟨_, hI.nodup, ?_, ?_, hI.loc, ?_, ?_⟩
  · intro o ho
    exact hI.names _ (List.mem_map_of_mem ho)
  · intro k l hl
    refine ⟨hI.versions k l hl, ?_⟩
    obtain ⟨x, h1, h2⟩ := hI.chain k l hl
    refine ⟨x, ?_, h2⟩
    rw [← h1]
    simp only [changesOf, List.filterMap_map, Function.comp_def, List.getElem?_map]
  · intro i p new hp hpc
    have := hI.pcs i p hp
    simpa only [PcOk, hpc] using this
  · intro i p hp hpc l hl
    have := hI.pcs i p hp
    simp only [PcOk, hpc] at this
    exact this (List.mem_map_of_mem (f := Prod.fst) hl)

/-- The example table at location `3-0`, with a plan that knows the location and one that does not. -/
example : StartsAt [((3, 0), [7])] (3, 0) 1 [7] [(8, some (3, 0)), (9, none)] :=
  ⟨by decide, by decide, by decide⟩

/-- Two writers at the same time: both write and look, both delete, the second goes on first. -/
example : (run exOps (init [((3, 0), [7])] (some (3, 0)) 1 [(8, some (3, 0)), (9, none)])
      (goOn 0 3 ++ goOn 1 3 ++ goOn 0 1 ++ goOn 1 1 ++ goOn 0 1 ++ goOn 1 1 ++ goOn 0 1 ++ goOn 1 7 ++
        goOn 0 6)).files =
    [((5, 4), [7, 9, 8]), ((4, 3), [7, 9]), ((3, 0), [7])] := by decide

/-- The state of a table with a leftover file of the next version. -/
structure Stuck (T : Ops M C) (l : Loc) (files : List (Loc × M)) (s : St M C) : Prop where
  files : s.files = files
  loc : s.loc = some l
  pcs : ∀ (i : Nat) p, s.procs[i]? = some p → (p.planned = none ∨ p.planned = some l) ∧
    (p.pc = .start ∨ p.pc = .located l ∨ (∃ m, p.pc = .loaded l m) ∨ p.pc = .failed ∨
      p.pc = .crashed)

theorem stuck_step {T : Ops M C} {l : Loc} {files : List (Loc × M)} {s : St M C} {x : M}
    (h1 : at? files l = some x) (h2 : T.hasSnap x = true) (h3 : ∃ f ∈ files, f.1.1 = l.1 + 1)
    (hS : Stuck T l files s) (e : Nat × Choice) : Stuck T l files (step T s e) := by
  obtain ⟨i, ch⟩ := e
  simp only [step]
  cases hp : s.procs[i]? with
  | none => exact hS
  | some p =>
    simp only
    obtain ⟨hpl, hpcs⟩ := hS.pcs i p hp
    have key : ∀ q : Proc M C, q.planned = p.planned → (q.pc = .start ∨ q.pc = .located l ∨
        (∃ m, q.pc = .loaded l m) ∨ q.pc = .failed ∨ q.pc = .crashed) →
        Stuck T l files (setProc s i q) := by
      intro q hq1 hq2
      refine ⟨hS.files, hS.loc, ?_⟩
      intro j r hr
      rw [setProc_get s i j q p hp] at hr
      split_ifs at hr
      · obtain rfl := Option.some.inj hr
        exact ⟨by rw [hq1]; exact hpl, hq2⟩
      · exact hS.pcs j r hr
    split_ifs
    · exact key _ rfl (by simp)
    · rcases hpcs with hpc | hpc | ⟨m, hpc⟩ | hpc | hpc
      · have hb : base s p = some l := by
          simp only [base, hS.loc]
          rcases hpl with h | h <;> simp [h]
        simp only [advance, hpc, afterBase, hb]
        exact key _ rfl (by simp)
      · simp only [advance, hpc, hS.files, h1, afterLoad]
        cases T.apply x p.change with
        | none => exact key _ rfl (by simp)
        | some m' => exact key _ rfl (by simp [h2])
      · have hne : (ofVersion s.files (l.1 + 1)).isEmpty = false := by
          obtain ⟨f, hf1, hf2⟩ := h3
          rw [Bool.eq_false_iff]
          intro hemp
          have hmem : f.1 ∈ ofVersion s.files (l.1 + 1) := by
            simp only [ofVersion, List.mem_filter]
            exact ⟨List.mem_map_of_mem (by rw [hS.files]; exact hf1), by simpa using hf2⟩
          rw [List.isEmpty_iff.1 hemp] at hmem
          simp at hmem
        simp only [advance, hpc, hne, Bool.false_eq_true, if_false]
        refine key _ ?_ ?_ <;> simp only [retry] <;> split_ifs <;> simp
      · simp only [advance, hpc]
        exact hS
      · simp only [advance, hpc]
        exact hS

/-- **C59**: a writer that died between the write of its file and the update of the catalog leaves a file
of the next version; from then on no commit to the table ever returns. -/
theorem C59_leftover_blocks_the_table (T : Ops M C) (files : List (Loc × M)) (l : Loc) (fresh : Nat)
    (x : M) (h1 : at? files l = some x) (h2 : T.hasSnap x = true)
    (h3 : ∃ f ∈ files, f.1.1 = l.1 + 1) (cs : List (C × Option Loc))
    (h4 : ∀ c ∈ cs, c.2 = none ∨ c.2 = some l) (es : List (Nat × Choice)) :
    (run T (init files (some l) fresh cs) es).loc = some l ∧
    (run T (init files (some l) fresh cs) es).files = files ∧
    ∀ (i : Nat) p new, (run T (init files (some l) fresh cs) es).procs[i]? = some p →
      p.pc ≠ .done new := by
  have h0 : Stuck T l files (init files (some l) fresh cs) := by
    refine ⟨rfl, rfl, ?_⟩
    intro i p hp
    simp only [init, List.getElem?_map, Option.map_eq_some_iff] at hp
    obtain ⟨c, hc, rfl⟩ := hp
    exact ⟨h4 c (List.mem_of_getElem? hc), Or.inl rfl⟩
  have hS : Stuck T l files (run T (init files (some l) fresh cs) es) :=
    run_induct T es _ h0 fun _ e hs => stuck_step h1 h2 h3 hs e
  refine ⟨hS.loc, hS.files, ?_⟩
  intro i p new hp hpc
  rcases (hS.pcs i p hp).2 with h | h | ⟨m, h⟩ | h | h <;> rw [hpc] at h <;> simp at h

/-- A crash after the write leads to such a state, and a later writer fails. -/
example :
    let s := run exOps (init [((3, 0), [7])] (some (3, 0)) 1 [(8, none), (9, none)])
      (goOn 0 4 ++ [(0, .crash)] ++ goOn 1 40)
    s.loc = some (3, 0) ∧ s.files = [((4, 1), [7, 8]), ((3, 0), [7])] ∧
    s.procs.map (fun p => p.pc) = [.crashed, .failed] := ⟨by decide, by decide, by decide⟩

/-- **C59** does not hold in full: two writers create the table at the same time, both return, and the
rows of the first are gone. -/
theorem C59_creations_overwrite_each_other :
    let s := run exOps (init [] none 0 [(8, none), (9, none)]) (goOn 0 1 ++ goOn 1 1 ++ goOn 0 2 ++ goOn 1 2)
    s.procs.map (fun p => p.pc) = [.done (0, 0), .done (0, 1)] ∧ s.loc = some (0, 1) ∧
      at? s.files (0, 1) = some [9] := ⟨by decide, by decide, by decide⟩

/-- **C57** does not hold for path tables recorded in the catalog of the session: a commit that had to try
again is in the table and visible, and reports an error. -/
theorem C57_recorded_table_reports_error_for_committed :
    let s := rrun exOps (rinit [(1, [7])] (some 1) (some 1) [8, 9])
      (goOn 0 1 ++ goOn 1 7 ++ goOn 0 20)
    s.result = [some false, some true] ∧ s.inner.files = [(3, [7, 9, 8]), (2, [7, 9]), (1, [7])] ∧
      Protocol.Spec.visible s.inner = some 3 := by
  decide

end Verif.Iceberg.Catalog
