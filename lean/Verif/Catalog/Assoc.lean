import Mathlib.Tactic.SplitIfs

/-!
# Association lists

A Rust `HashMap` or `DashMap` is a list of pairs with distinct keys. Its order stands for
the order in which the Rust map would be traversed, which is not specified; no theorem
depends on it.
-/

namespace Verif.Catalog

variable {κ ν : Type} [DecidableEq κ]

/-- The value of a key (`HashMap::get`). -/
def find (m : List (κ × ν)) (k : κ) : Option ν :=
  match m with
  | [] => none
  | (k', v) :: m => if k' = k then some v else find m k

/-- The map without a key (`HashMap::remove`). -/
def erase (m : List (κ × ν)) (k : κ) : List (κ × ν) :=
  m.filter fun e => decide (e.1 ≠ k)

/-- The map with a value for a key (`HashMap::insert`). -/
def put (m : List (κ × ν)) (k : κ) (v : ν) : List (κ × ν) := (k, v) :: erase m k

/-- No key twice. -/
def Distinct (m : List (κ × ν)) : Prop := (m.map (·.1)).Nodup

theorem find_erase (m : List (κ × ν)) (k k' : κ) :
    find (erase m k) k' = if k = k' then none else find m k' := by
  induction m with
  | nil => simp [erase, find]
  | cons e m ih =>
    obtain ⟨a, v⟩ := e
    simp only [erase, List.filter_cons] at ih ⊢
    by_cases ha : a = k
    · subst ha
      simp only [ne_eq, not_true_eq_false, decide_false, Bool.false_eq_true, if_false, find]
      rw [ih]
      split_ifs <;> rfl
    · simp only [ne_eq, ha, not_false_eq_true, decide_true, if_true, find]
      by_cases hk : k = k'
      · subst hk
        rw [if_neg ha, ih, if_pos rfl, if_pos rfl]
      · rw [ih]
        simp only [hk, if_false]

theorem find_put (m : List (κ × ν)) (k k' : κ) (v : ν) :
    find (put m k v) k' = if k = k' then some v else find m k' := by
  rw [put, find, find_erase]
  split_ifs <;> rfl

theorem Distinct.erase {m : List (κ × ν)} (h : Distinct m) (k : κ) : Distinct (erase m k) :=
  List.Nodup.sublist (List.Sublist.map _ List.filter_sublist) h

theorem Distinct.put {m : List (κ × ν)} (h : Distinct m) (k : κ) (v : ν) :
    Distinct (put m k v) := by
  rw [Distinct, Catalog.put, List.map_cons, List.nodup_cons]
  refine ⟨?_, h.erase k⟩
  intro hk
  obtain ⟨e, he, rfl⟩ := List.mem_map.1 hk
  have := (List.mem_filter.1 he).2
  simp at this

theorem mem_of_find {m : List (κ × ν)} {k : κ} {v : ν} (h : find m k = some v) : (k, v) ∈ m := by
  induction m with
  | nil => exact nomatch h
  | cons e m ih =>
    obtain ⟨a, w⟩ := e
    rw [find] at h
    split_ifs at h with ha
    · cases h
      subst ha
      exact List.mem_cons_self
    · exact List.mem_cons_of_mem _ (ih h)

theorem find_of_mem {m : List (κ × ν)} (hd : Distinct m) {k : κ} {v : ν} (h : (k, v) ∈ m) :
    find m k = some v := by
  induction m with
  | nil => exact nomatch h
  | cons e m ih =>
    obtain ⟨a, w⟩ := e
    rw [Distinct, List.map_cons, List.nodup_cons] at hd
    rw [find]
    rcases List.mem_cons.1 h with h | h
    · cases h
      rw [if_pos rfl]
    · have : a ≠ k := by
        rintro rfl
        exact hd.1 (List.mem_map.2 ⟨_, h, rfl⟩)
      rw [if_neg this]
      exact ih hd.2 h

theorem find_iff {m : List (κ × ν)} (hd : Distinct m) {k : κ} {v : ν} :
    find m k = some v ↔ (k, v) ∈ m :=
  ⟨mem_of_find, find_of_mem hd⟩

theorem find_eq_none {m : List (κ × ν)} {k : κ} : find m k = none ↔ ∀ v, (k, v) ∉ m := by
  induction m with
  | nil => simp [find]
  | cons e m ih =>
    obtain ⟨a, w⟩ := e
    rw [find]
    split_ifs with ha
    · subst ha
      exact ⟨fun h => (nomatch h), fun h => absurd List.mem_cons_self (h w)⟩
    · rw [ih]
      constructor
      · intro h v hv
        rcases List.mem_cons.1 hv with hv | hv
        · cases hv
          exact ha rfl
        · exact h v hv
      · exact fun h v hv => h v (List.mem_cons_of_mem _ hv)

theorem find_nil_iff {m : List (κ × ν)} : m = [] ↔ ∀ k, find m k = none := by
  constructor
  · rintro rfl k
    rfl
  · intro h
    cases m with
    | nil => rfl
    | cons e m =>
      have := h e.1
      rw [find, if_pos rfl] at this
      exact nomatch this

end Verif.Catalog
