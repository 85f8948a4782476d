import Verif.Delta.FileStats

/-! Lemmas for `Verif.Delta.FileStatsProps`. -/

namespace Verif.Delta.FileStats

section Agg
variable {V : Type} (lt : V → V → Bool)

/-- `v` is between the two bounds. -/
def Enc (a : Agg V) (v : V) : Prop :=
  ∃ lo hi, a.min = some lo ∧ a.max = some hi ∧ lt v lo = false ∧ lt hi v = false

variable (asymm : ∀ a b, lt a b = true → lt b a = false)
  (neg : ∀ a b c, lt a b = false → lt b c = false → lt a c = false)
include asymm neg

omit asymm in
theorem enc_left (a b : Agg V) (v : V) (h : Enc lt a v) : Enc lt (a.add lt b) v := by
  obtain ⟨lo, hi, h1, h2, h3, h4⟩ := h
  obtain ⟨bm, bx, bn⟩ := b
  obtain ⟨am, ax, an⟩ := a
  cases h1; cases h2
  have k1 : ∃ lo', minOf lt (some lo) bm = some lo' ∧ lt v lo' = false := by
    cases bm with
    | none => exact ⟨lo, rfl, h3⟩
    | some r =>
      simp only [minOf]
      cases h : lt lo r
      · exact ⟨r, by simp, neg _ _ _ h3 h⟩
      · exact ⟨lo, by simp, h3⟩
  have k2 : ∃ hi', maxOf lt (some hi) bx = some hi' ∧ lt hi' v = false := by
    cases bx with
    | none => exact ⟨hi, rfl, h4⟩
    | some r =>
      simp only [maxOf]
      cases h : lt r hi
      · exact ⟨r, by simp, neg _ _ _ h h4⟩
      · exact ⟨hi, by simp, h4⟩
  obtain ⟨lo', k1, k3⟩ := k1
  obtain ⟨hi', k2, k4⟩ := k2
  exact ⟨lo', hi', k1, k2, k3, k4⟩

theorem enc_right (a b : Agg V) (v : V) (h : Enc lt b v) : Enc lt (a.add lt b) v := by
  obtain ⟨lo, hi, h1, h2, h3, h4⟩ := h
  obtain ⟨bm, bx, bn⟩ := b
  obtain ⟨am, ax, an⟩ := a
  cases h1; cases h2
  have k1 : ∃ lo', minOf lt am (some lo) = some lo' ∧ lt v lo' = false := by
    cases am with
    | none => exact ⟨lo, rfl, h3⟩
    | some r =>
      simp only [minOf]
      cases h : lt r lo
      · exact ⟨lo, by simp, h3⟩
      · exact ⟨r, by simp, neg _ _ _ h3 (asymm _ _ h)⟩
  have k2 : ∃ hi', maxOf lt ax (some hi) = some hi' ∧ lt hi' v = false := by
    cases ax with
    | none => exact ⟨hi, rfl, h4⟩
    | some r =>
      simp only [maxOf]
      cases h : lt hi r
      · exact ⟨hi, by simp, h4⟩
      · exact ⟨r, by simp, neg _ _ _ (asymm _ _ h) h4⟩
  obtain ⟨lo', k1, k3⟩ := k1
  obtain ⟨hi', k2, k4⟩ := k2
  exact ⟨lo', hi', k1, k2, k3, k4⟩

theorem enc_fold (l : List (Agg V)) (a : Agg V) (v : V) (h : Enc lt a v ∨ ∃ b ∈ l, Enc lt b v) :
    Enc lt (l.foldl (Agg.add lt) a) v := by
  induction l generalizing a with
  | nil =>
    rcases h with h | ⟨b, hb, _⟩
    · exact h
    · cases hb
  | cons c l ih =>
    simp only [List.foldl_cons]
    apply ih
    rcases h with h | ⟨b, hb, h⟩
    · exact .inl (enc_left lt neg _ _ _ h)
    · rcases List.mem_cons.1 hb with rfl | hb
      · exact .inl (enc_right lt asymm neg _ _ _ h)
      · exact .inr ⟨b, hb, h⟩

theorem aggregate_enc {R : Type} (read : R → Option V) (gs : List (Option (Raw R))) (s : Raw R)
    (hs : some s ∈ gs) (v : V) (h : Enc lt (Agg.ofRaw read s) v) :
    ∃ a, aggregate lt read gs = some a ∧ Enc lt a v := by
  have hm : Agg.ofRaw read s ∈ (gs.filterMap id).map (Agg.ofRaw read) :=
    List.mem_map_of_mem (List.mem_filterMap.2 ⟨some s, hs, rfl⟩)
  simp only [aggregate]
  revert hm
  cases (gs.filterMap id).map (Agg.ofRaw read) with
  | nil => intro hm; cases hm
  | cons a l =>
    intro hm
    refine ⟨_, rfl, enc_fold lt asymm neg l a v ?_⟩
    rcases List.mem_cons.1 hm with h' | h'
    · exact .inl (h' ▸ h)
    · exact .inr ⟨_, h', h⟩

end Agg

theorem fold_nulls {V : Type} (lt : V → V → Bool) (l : List (Agg V)) (a : Agg V) :
    (l.foldl (Agg.add lt) a).nulls = a.nulls + (l.map (·.nulls)).sum := by
  induction l generalizing a with
  | nil => simp
  | cons b l ih =>
    simp only [List.foldl_cons, ih, List.map_cons, List.sum_cons]
    simp only [Agg.add]
    omega

/-! ## Maps -/

theorem get_put_same {A : Type} (d : Dir A) (k : String) (t : Tree A) : (d.put k t).get k = some t := by
  simp [Dir.put, Dir.get]

theorem get_put_other {A : Type} (d : Dir A) (k k' : String) (t : Tree A) (h : k ≠ k') :
    (d.put k t).get k' = d.get k' := by
  simp only [Dir.put, Dir.get, if_neg h]
  induction d with
  | nil => rfl
  | cons x d ih =>
    obtain ⟨n, u⟩ := x
    by_cases hn : n = k
    · subst hn
      simp only [ne_eq, not_true_eq_false, decide_false, Bool.false_eq_true, not_false_eq_true, List.filter_cons_of_neg]
      rw [ih]
      simp [Dir.get, h]
    · rw [List.filter_cons_of_pos (by simpa using hn)]
      simp only [Dir.get, ih]

/-- Recording one of the three statistics. -/
def set {A : Type} (o : Option A) : List String → Dir A → Option (Dir A)
  | [], _ => none
  | [k], d => some (d.putOpt k o)
  | k :: k' :: rest, d =>
    match d.child k with
    | .column c =>
      match set o (k' :: rest) c with
      | none => none
      | some r => some (d.put k (.column r))
    | .value _ => none

/-- Nothing is recorded for the path or above it. -/
def Clear {A : Type} : List String → Dir A → Prop
  | [], _ => False
  | [k], d => d.get k = none
  | k :: k' :: rest, d => ∃ c, d.child k = .column c ∧ Clear (k' :: rest) c

theorem clear_nil {A : Type} (p : List String) (hp : p ≠ []) : Clear p ([] : Dir A) := by
  induction p with
  | nil => exact absurd rfl hp
  | cons k p ih =>
    cases p with
    | nil => rfl
    | cons k' p => exact ⟨[], rfl, ih (by simp)⟩

/-- Neither is at or below the other. -/
def Apart (p q : List String) : Prop := ¬ p <+: q ∧ ¬ q <+: p

theorem apart_cons {k : String} {p q : List String} (h : Apart (k :: p) (k :: q)) : Apart p q :=
  ⟨fun h' => h.1 (List.cons_prefix_cons.2 ⟨rfl, h'⟩), fun h' => h.2 (List.cons_prefix_cons.2 ⟨rfl, h'⟩)⟩

theorem set_find {A : Type} (o : Option A) (p : List String) (d : Dir A) (h : Clear p d) :
    ∃ d', set o p d = some d' ∧ d'.find p = o := by
  induction p generalizing d with
  | nil => exact h.elim
  | cons k p ih =>
    cases p with
    | nil =>
      refine ⟨_, rfl, ?_⟩
      cases o with
      | none => simp only [Dir.putOpt, Dir.find]; rw [show d.get k = none from h]
      | some a => simp only [Dir.putOpt, Dir.find, get_put_same]
    | cons k' p =>
      obtain ⟨c, hc, h⟩ := h
      obtain ⟨c', h1, h2⟩ := ih c h
      refine ⟨d.put k (.column c'), by simp only [set, hc, h1], ?_⟩
      simp only [Dir.find, get_put_same]
      exact h2

theorem set_other {A : Type} (o : Option A) (p q : List String) (d d' : Dir A) (h : set o p d = some d')
    (ha : Apart p q) : d'.find q = d.find q ∧ (Clear q d → Clear q d') := by
  induction p generalizing q d d' with
  | nil => cases h
  | cons k p ih =>
    cases p with
    | nil =>
      cases h
      cases o with
      | none => exact ⟨rfl, id⟩
      | some a =>
        simp only [Dir.putOpt]
        cases q with
        | nil => exact ⟨rfl, id⟩
        | cons k2 q =>
          have hk : k ≠ k2 := by
            rintro rfl
            exact ha.1 (List.cons_prefix_cons.2 ⟨rfl, List.nil_prefix⟩)
          cases q with
          | nil => simp only [Dir.find, Clear, get_put_other _ _ _ _ hk]; exact ⟨trivial, id⟩
          | cons k3 q => simp only [Dir.find, Clear, Dir.child, get_put_other _ _ _ _ hk]; exact ⟨trivial, id⟩
    | cons k' p =>
      simp only [set] at h
      revert h
      cases hc : d.child k with
      | value _ => intro h; cases h
      | column c =>
        dsimp only
        cases hs : set o (k' :: p) c with
        | none => intro h; cases h
        | some c' =>
          intro h
          cases h
          cases q with
          | nil => exact ⟨rfl, id⟩
          | cons k2 q =>
            by_cases hk : k = k2
            · subst hk
              cases q with
              | nil => exact absurd (List.cons_prefix_cons.2 ⟨rfl, List.nil_prefix⟩) ha.2
              | cons k3 q =>
                obtain ⟨h1, h2⟩ := ih (k3 :: q) c c' hs (apart_cons ha)
                constructor
                · simp only [Dir.find, get_put_same]
                  rw [h1]
                  simp only [Dir.child] at hc
                  cases hg : d.get k with
                  | none =>
                    rw [hg] at hc
                    cases hc
                    cases q <;> rfl
                  | some t => rw [hg] at hc; cases hc; rfl
                · rintro ⟨c2, hc2, hcl⟩
                  rw [hc] at hc2
                  cases hc2
                  exact ⟨c', by simp only [Dir.child, get_put_same, Option.getD_some], h2 hcl⟩
            · cases q with
              | nil => simp only [Dir.find, Clear, get_put_other _ _ _ _ hk]; exact ⟨trivial, id⟩
              | cons k3 q => simp only [Dir.find, Clear, Dir.child, get_put_other _ _ _ _ hk]; exact ⟨trivial, id⟩

theorem applyAt_eq {V : Type} (s : Agg V) (p : List String) (m : Maps V) (a b : Dir V) (c : Dir Nat)
    (h1 : set s.min p m.min = some a) (h2 : set s.max p m.max = some b)
    (h3 : set (some s.nulls) p m.nulls = some c) : applyAt s p m = some ⟨a, b, c⟩ := by
  induction p generalizing m a b c with
  | nil => cases h1
  | cons k p ih =>
    cases p with
    | nil => cases h1; cases h2; cases h3; rfl
    | cons k' p =>
      simp only [set] at h1 h2 h3
      simp only [applyAt]
      revert h1 h2 h3
      cases m.min.child k with
      | value _ => intro h; cases h
      | column x =>
        cases m.max.child k with
        | value _ => intro _ h; cases h
        | column y =>
          cases m.nulls.child k with
          | value _ => intro _ _ h; cases h
          | column z =>
            dsimp only
            cases hx : set s.min (k' :: p) x with
            | none => intro h; cases h
            | some x' =>
              cases hy : set s.max (k' :: p) y with
              | none => intro _ h; cases h
              | some y' =>
                cases hz : set (some s.nulls) (k' :: p) z with
                | none => intro _ _ h; cases h
                | some z' =>
                  intro h1 h2 h3
                  cases h1; cases h2; cases h3
                  rw [ih ⟨x, y, z⟩ x' y' z' hx hy hz]

theorem loop_list (rep : Nat) (a : String) (es : List String) (he : ∀ e ∈ es, e = "element" ∨ e = "item")
    (i : Nat) (hi : i + es.length = rep) :
    listNameLoop rep (es.flatMap (fun e => [e, "list"]) ++ [a]) i i = some a := by
  induction es generalizing i with
  | nil =>
    have hi : i = rep := by simpa using hi
    subst hi
    simp only [List.flatMap_nil, List.nil_append, listNameLoop, and_true, sailList]
    split
    · rename_i h; rw [h]
    split
    · rename_i h; rw [h]
    split
    · rename_i h; rw [h]
    simp_all
  | cons e es ih =>
    have hlt : i ≠ rep := by simp only [List.length_cons] at hi; omega
    have ih := ih (fun x hx => he x (List.mem_cons_of_mem _ hx)) (i + 1) (by simp only [List.length_cons] at hi; omega)
    rcases he e List.mem_cons_self with rfl | rfl <;>
      simp [listNameLoop, hlt, sailList, ih]

theorem listName_eq (a : String) (es : List String) (he : ∀ e ∈ es, e = "element" ∨ e = "item") :
    listName es.length (a :: es.flatMap (fun e => ["list", e])) = some a := by
  have hl : (a :: es.flatMap (fun e => ["list", e])).length = 2 * es.length + 1 := by
    simp only [List.length_cons]
    congr 1
    clear he
    induction es with
    | nil => rfl
    | cons e es ih => simp only [List.flatMap_cons, List.length_append, ih, List.length_cons, List.length_nil]; omega
  simp only [listName, hl, Nat.lt_irrefl, if_false]
  rw [show (a :: es.flatMap (fun e => ["list", e])).reverse = es.reverse.flatMap (fun e => [e, "list"]) ++ [a] by
    rw [List.reverse_cons, List.reverse_flatMap]; rfl]
  exact loop_list _ a es.reverse (fun e h => he e (List.mem_reverse.1 h)) 0 (by simp)

end Verif.Delta.FileStats
