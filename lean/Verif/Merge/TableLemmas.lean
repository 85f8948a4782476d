import Verif.Merge.RowLemmas
import Mathlib.Data.List.Perm.Basic

/-! # Lemmas on MERGE: joined rows of a target row, failures, resulting tables -/

set_option linter.unusedSectionVars false

namespace Verif.Merge

open Verif.Opt (Row and3 eq3)

variable {α : Type} [DecidableEq α]

/-- The joined rows of a target row. -/
def jsOf (o : Options α) (S : List (Row α)) (t : TRow α × Nat) : List (JRow α) :=
  match Spec.matchesOf o S t.1.vals with
  | [] => [⟨some t, none⟩]
  | l => l.map (fun s => ⟨some t, some s⟩)

theorem fullJoin_eq (o : Options α) (T : List (TRow α)) (S : List (Row α)) :
    fullJoin (joins o.on) T S =
      T.zipIdx.flatMap (jsOf o S) ++ (Spec.unmatched o T S).map (fun s => ⟨none, some s⟩) := by
  rw [fullJoin]
  congr 1
  · congr 1
    funext t
    rw [jsOf, Spec.matchesOf]
    simp only [joins_eq]
    cases S.filter (fun s => o.on.eval t.1.vals s == some true) <;> rfl
  · congr 1
    rw [Spec.unmatched]
    apply List.filter_congr
    intro s _
    simp only [joins_eq]
    rw [List.all_eq_not_any_not]
    simp only [bne, Bool.not_not]

theorem jsOf_t {o : Options α} {S : List (Row α)} {t : TRow α × Nat} {j : JRow α} (h : j ∈ jsOf o S t) :
    j.t = some t := by
  rw [jsOf] at h
  split at h
  · simp only [List.mem_singleton] at h
    rw [h]
  · simp only [List.mem_map] at h
    obtain ⟨s, _, rfl⟩ := h
    rfl

/-- The joined row of a target row pairs it with a source row for which the ON condition is true. -/
theorem jsOf_cases {o : Options α} {S : List (Row α)} {t : TRow α × Nat} {j : JRow α} (h : j ∈ jsOf o S t) :
    (Spec.matchesOf o S t.1.vals = [] ∧ j = ⟨some t, none⟩) ∨
      ∃ s ∈ Spec.matchesOf o S t.1.vals, j = ⟨some t, some s⟩ := by
  rw [jsOf] at h
  split at h
  · rename_i heq
    simp only [List.mem_singleton] at h
    exact .inl ⟨heq, h⟩
  · simp only [List.mem_map] at h
    obtain ⟨s, hs, rfl⟩ := h
    exact .inr ⟨s, hs, rfl⟩

theorem matchesOf_mem {o : Options α} {S : List (Row α)} {t s : Row α} (h : s ∈ Spec.matchesOf o S t) :
    s ∈ S ∧ o.on.eval t s = some true := by
  rw [Spec.matchesOf, List.mem_filter, beq_iff_eq] at h
  exact h

/-! ## The cardinality check -/

/-- The row ids of the matched rows of the join. -/
def matchedIds (js : List (JRow α)) : List Nat :=
  js.filterMap (fun j => match j.t, j.s with
    | some t, some _ => some t.2
    | _, _ => none)

theorem checkGo_iff : ∀ (js : List (JRow α)) (seen : List Nat),
    checkGo seen js = true ↔ (matchedIds js).Nodup ∧ ∀ i ∈ matchedIds js, i ∉ seen
  | [], seen => by simp [checkGo, matchedIds]
  | j :: js, seen => by
    obtain ⟨jt, jsrc⟩ := j
    cases jt with
    | none => simpa [checkGo, matchedIds] using checkGo_iff js seen
    | some t =>
      cases jsrc with
      | none => simpa [checkGo, matchedIds] using checkGo_iff js seen
      | some s =>
        have ih := checkGo_iff js (t.2 :: seen)
        have hids : matchedIds (⟨some t, some s⟩ :: js) = t.2 :: matchedIds js := by simp [matchedIds]
        rw [hids, checkGo]
        simp only [List.contains_iff_mem]
        split_ifs with hc
        · simp [hc]
        · rw [ih, List.nodup_cons]
          constructor
          · rintro ⟨h1, h2⟩
            refine ⟨⟨fun hm => h2 _ hm (by simp), h1⟩, ?_⟩
            intro i hi
            rcases List.mem_cons.1 hi with rfl | hi
            · exact hc
            · exact fun hs => h2 i hi (by simp [hs])
          · rintro ⟨⟨h1, h2⟩, h3⟩
            refine ⟨h2, ?_⟩
            intro i hi hs
            rcases List.mem_cons.1 hs with rfl | hs
            · exact h1 hi
            · exact h3 i (by simp [hi]) hs

theorem matchedIds_append (a b : List (JRow α)) : matchedIds (a ++ b) = matchedIds a ++ matchedIds b := by
  simp [matchedIds, List.filterMap_append]

theorem matchedIds_jsOf (o : Options α) (S : List (Row α)) (t : TRow α × Nat) :
    matchedIds (jsOf o S t) = List.replicate (Spec.matchesOf o S t.1.vals).length t.2 := by
  rw [jsOf]
  split
  · rename_i heq
    simp [matchedIds, heq]
  · rename_i l heq
    rw [matchedIds, List.filterMap_map]
    generalize Spec.matchesOf o S t.1.vals = l
    induction l with
    | nil => rfl
    | cons a l ih => simp [List.replicate_succ]

theorem matchedIds_insert (l : List (Row α)) :
    matchedIds (l.map (fun s => (⟨none, some s⟩ : JRow α))) = [] := by
  simp [matchedIds, List.filterMap_map]

theorem matchedIds_flatMap (o : Options α) (S : List (Row α)) (X : List (TRow α × Nat)) :
    matchedIds (X.flatMap (jsOf o S)) =
      X.flatMap (fun t => List.replicate (Spec.matchesOf o S t.1.vals).length t.2) := by
  induction X with
  | nil => rfl
  | cons t X ih => rw [List.flatMap_cons, matchedIds_append, ih, matchedIds_jsOf, List.flatMap_cons]

/-- The check passes iff no target row matches two source rows. -/
theorem check_iff (o : Options α) (T : List (TRow α)) (S : List (Row α)) :
    checkGo [] (fullJoin (joins o.on) T S) = true ↔ Spec.Single o T S := by
  rw [checkGo_iff, fullJoin_eq, matchedIds_append, matchedIds_insert, List.append_nil, matchedIds_flatMap]
  have hgo : ∀ (n : Nat) (L : List (TRow α)),
      ((L.zipIdx n).flatMap (fun t => List.replicate (Spec.matchesOf o S t.1.vals).length t.2)).Nodup ↔
        ∀ t ∈ L, (Spec.matchesOf o S t.vals).length ≤ 1 := by
    intro n L
    induction L generalizing n with
    | nil => simp
    | cons t L ih =>
      rw [List.zipIdx_cons, List.flatMap_cons, List.nodup_append, ih (n + 1), List.nodup_replicate]
      simp only [List.mem_cons, forall_eq_or_imp]
      constructor
      · rintro ⟨h1, h2, _⟩
        exact ⟨h1, h2⟩
      · rintro ⟨h1, h2⟩
        refine ⟨h1, h2, ?_⟩
        intro a ha b hb
        have ha := (List.mem_replicate.1 ha).2
        simp only [List.mem_flatMap] at hb
        obtain ⟨x, hx, hb⟩ := hb
        have hb := (List.mem_replicate.1 hb).2
        have := List.le_snd_of_mem_zipIdx hx
        omega
  simp only [List.not_mem_nil, not_false_iff, implies_true, and_true]
  exact hgo 0 T

/-- The rows that are matched twice do not matter. -/
def Tame (o : Options α) (T : List (TRow α)) (S : List (Row α)) : Prop :=
  ∀ t ∈ T, (Spec.matchesOf o S t.vals).length ≤ 1 ∨ Spec.LoneDelete o ∨ o.matched = []

theorem shouldCheck_false {o : Options α} (h : shouldCheck o = false) : Spec.LoneDelete o ∨ o.matched = [] := by
  rw [shouldCheck] at h
  split at h
  · rename_i heq
    exact .inr heq
  · rename_i heq
    exact .inl heq
  · exact nomatch h

/-- If the statement passes the check, double matches do not matter. -/
theorem checkedJoin_ok {o : Options α} {unique : Bool} {T : List (TRow α)} {S : List (Row α)} {js : List (JRow α)}
    (hu : unique = true → Spec.Single o T S) (h : checkedJoin o (needsCheck o unique) T S = .ok js) :
    js = fullJoin (joins o.on) T S ∧ Tame o T S := by
  simp only [checkedJoin] at h
  split_ifs at h with hc
  cases h
  refine ⟨rfl, ?_⟩
  intro t ht
  cases hs : shouldCheck o with
  | false => exact .inr (shouldCheck_false hs)
  | true =>
    left
    cases unique with
    | true => exact hu rfl t ht
    | false =>
      have : checkGo [] (fullJoin (joins o.on) T S) = true := by
        simpa [needsCheck, hs] using hc
      exact (check_iff o T S).1 this t ht

theorem checkedJoin_error {o : Options α} {unique : Bool} {T : List (TRow α)} {S : List (Row α)} {e : Err}
    (h : checkedJoin o (needsCheck o unique) T S = .error e) :
    e = .cardinality ∧ ¬ Spec.Single o T S ∧ o.matched ≠ [] ∧ ¬ Spec.LoneDelete o := by
  simp only [checkedJoin] at h
  split_ifs at h with hc
  cases h
  simp only [needsCheck, Bool.and_eq_true, Bool.not_eq_true'] at hc
  refine ⟨rfl, fun hs => ?_, fun h0 => ?_, fun h0 => ?_⟩
  · rw [(check_iff o T S).2 hs] at hc
    exact nomatch hc.2
  · rw [shouldCheck, h0] at hc
    exact nomatch hc.1.1
  · rw [shouldCheck, h0] at hc
    exact nomatch hc.1.1

/-! ## Generation and constraints -/

theorem mapM_applyGen {o : Options α} (hv : Spec.Valid o) : ∀ rows : List (PRow α),
    rows.mapM (applyGen o) = .ok (rows.map (genRow o)) ∨
      (rows.mapM (applyGen o) = .error .generated ∧ ∃ p ∈ rows, p.op = .insert ∧ Mismatch o p.vals)
  | [] => .inl rfl
  | p :: rows => by
    rw [List.mapM_cons]
    rcases applyGen_eq hv p with hp | ⟨hp, h1, h2⟩
    · rcases mapM_applyGen hv rows with hr | ⟨hr, q, hq, h⟩
      · left
        rw [hp, hr]
        rfl
      · right
        rw [hp, hr]
        exact ⟨rfl, q, by simp [hq], h⟩
    · right
      rw [hp]
      exact ⟨rfl, p, by simp, h1, h2⟩

theorem finishRows_ok {o : Options α} (hv : Spec.Valid o) {rows extra l : List (PRow α)}
    (h : finishRows o rows extra = .ok l) :
    l = rows.map (genRow o) ++ extra ∧ ∀ p ∈ l, checksOk o p = true := by
  rw [finishRows] at h
  rcases mapM_applyGen hv rows with hr | ⟨hr, _⟩
  · rw [hr] at h
    change (if (rows.map (genRow o) ++ extra).all (checksOk o) then _ else _) = _ at h
    split_ifs at h with hc
    cases h
    exact ⟨rfl, List.all_eq_true.1 hc⟩
  · rw [hr] at h
    exact nomatch h

theorem finishRows_error {o : Options α} (hv : Spec.Valid o) {rows extra : List (PRow α)} {e : Err}
    (h : finishRows o rows extra = .error e) :
    (e = .generated ∧ ∃ p ∈ rows, p.op = .insert ∧ Mismatch o p.vals) ∨
      (e = .constraint ∧ ∃ p ∈ rows.map (genRow o) ++ extra, checksOk o p = false) := by
  rw [finishRows] at h
  rcases mapM_applyGen hv rows with hr | ⟨hr, hm⟩
  · rw [hr] at h
    change (if (rows.map (genRow o) ++ extra).all (checksOk o) then _ else _) = _ at h
    split_ifs at h with hc
    cases h
    right
    have hc : (rows.map (genRow o) ++ extra).all (checksOk o) = false := by simpa using hc
    obtain ⟨p, hp, hpc⟩ := List.all_eq_false.1 hc
    exact ⟨rfl, p, hp, by simpa using hpc⟩
  · rw [hr] at h
    cases h
    exact .inl ⟨rfl, hm⟩

theorem planOk_valid {o : Options α} (hv : Spec.Valid o) : planOk o = true := by
  have hres : ∀ n : Name, (∃ c ∈ o.target, namesEqual o.caseSensitive c n = true) →
      (resolveTarget o n).isSome = true := by
    rintro n ⟨c, hc, h⟩
    rw [(resolveTarget_iff hv hc).2 (namesEqual_symm h)]
    rfl
  rw [planOk, Bool.and_eq_true, List.all_eq_true, List.all_eq_true]
  constructor
  · intro c hc
    cases ha : c.action with
    | delete => rfl
    | updateAll => rfl
    | updateSet as =>
      exact List.all_eq_true.2 (fun a h => hres _ (hv.matchedCols c hc as ha a h))
  · intro c hc
    cases ha : c.action with
    | delete => rfl
    | updateSet as =>
      exact List.all_eq_true.2 (fun a h => hres _ (hv.bySourceCols c hc as ha a h))

/-- A row of the expanded plan. -/
def outRow (o : Options α) (j : JRow α) : PRow α := genRow o (project o j)

/-- The rows of the expanded plan that come from joined rows. -/
def expanded (o : Options α) (T : List (TRow α)) (S : List (Row α)) : List (PRow α) :=
  (T.zipIdx.flatMap (jsOf o S)).map (outRow o) ++
    ((Spec.unmatched o T S).filter (fun s => (Spec.pick (fun p => p s) o.inserts).isSome)).map
      (fun s => outRow o ⟨none, some s⟩)

theorem active_rows (o : Options α) (T : List (TRow α)) (S : List (Row α)) :
    (fullJoin (joins o.on) T S).filter (fun j => active o j == some true) =
      T.zipIdx.flatMap (jsOf o S) ++
        ((Spec.unmatched o T S).filter (fun s => (Spec.pick (fun p => p s) o.inserts).isSome)).map
          (fun s => ⟨none, some s⟩) := by
  rw [fullJoin_eq, List.filter_append]
  congr 1
  · rw [List.filter_eq_self]
    intro j hj
    simp only [List.mem_flatMap] at hj
    obtain ⟨t, _, hj⟩ := hj
    have := jsOf_t hj
    obtain ⟨jt, js⟩ := j
    cases this
    rw [active_target]
    rfl
  · rw [List.filter_map]
    congr 1
    apply List.filter_congr
    intro s _
    rw [Bool.eq_iff_iff, ← active_insert]
    simp

theorem writePlan_ok {o : Options α} (hv : Spec.Valid o) {unique : Bool} {T : List (TRow α)} {S : List (Row α)}
    {l : List (PRow α)} (hu : unique = true → Spec.Single o T S)
    (h : writePlan o (needsCheck o unique) T S = .ok l) :
    l = expanded o T S ++ [metricRow o S] ∧ Tame o T S ∧ ∀ p ∈ l, checksOk o p = true := by
  rw [writePlan, planOk_valid hv] at h
  simp only [Bool.not_true, Bool.false_eq_true, if_false] at h
  cases hj : checkedJoin o (needsCheck o unique) T S with
  | error e => rw [hj] at h; exact nomatch h
  | ok js =>
    rw [hj] at h
    obtain ⟨rfl, ht⟩ := checkedJoin_ok hu hj
    have hf := finishRows_ok hv (show finishRows o _ _ = _ from h)
    refine ⟨?_, ht, hf.2⟩
    rw [hf.1, active_rows, expanded, List.map_map, List.map_append, List.map_map]
    rfl

theorem writePlan_error {o : Options α} (hv : Spec.Valid o) {unique : Bool} {T : List (TRow α)} {S : List (Row α)}
    {e : Err} (hu : unique = true → Spec.Single o T S)
    (h : writePlan o (needsCheck o unique) T S = .error e) :
    (e = .cardinality ∧ ¬ Spec.Single o T S ∧ o.matched ≠ [] ∧ ¬ Spec.LoneDelete o) ∨
    (Tame o T S ∧ ((e = .generated ∧ ∃ s ∈ Spec.unmatched o T S, (Spec.pick (fun p => p s) o.inserts).isSome = true ∧
        Mismatch o (project o ⟨none, some s⟩).vals) ∨
      (e = .constraint ∧ ∃ p ∈ expanded o T S, checksOk o p = false))) := by
  rw [writePlan, planOk_valid hv] at h
  simp only [Bool.not_true, Bool.false_eq_true, if_false] at h
  cases hj : checkedJoin o (needsCheck o unique) T S with
  | error e' =>
    rw [hj] at h
    cases h
    exact .inl (checkedJoin_error hj)
  | ok js =>
    rw [hj] at h
    obtain ⟨rfl, ht⟩ := checkedJoin_ok hu hj
    right
    refine ⟨ht, ?_⟩
    rcases finishRows_error hv (show finishRows o _ _ = _ from h) with ⟨he, p, hp, hop, hm⟩ | ⟨he, p, hp, hc⟩
    · left
      refine ⟨he, ?_⟩
      rw [active_rows] at hp
      simp only [List.mem_map, List.mem_append, List.mem_flatMap, List.mem_filter] at hp
      obtain ⟨j, (⟨t, ht', hj'⟩ | ⟨s, ⟨hs, hpick⟩, rfl⟩), rfl⟩ := hp
      · exfalso
        rcases jsOf_cases hj' with ⟨_, rfl⟩ | ⟨s, _, rfl⟩
        · simp only [project, projectOp_bySource, bySourceOps] at hop
          split at hop
          · exact nomatch hop
          · rename_i a _
            cases a <;> exact nomatch hop
        · simp only [project, projectOp_matched, matchedOps] at hop
          split at hop
          · exact nomatch hop
          · rename_i a _
            cases a <;> exact nomatch hop
      · exact ⟨s, hs, hpick, hm⟩
    · right
      refine ⟨he, ?_⟩
      rw [active_rows] at hp
      rcases List.mem_append.1 hp with hp | hp
      · refine ⟨p, ?_, hc⟩
        rw [expanded]
        rw [List.map_map, List.map_append, List.map_map] at hp
        exact hp
      · simp only [List.mem_singleton] at hp
        rw [hp] at hc
        exact nomatch hc

end Verif.Merge
