import Verif.Merge.ResultLemmas

/-! # Lemmas on MERGE: the runs of the statement -/

set_option linter.unusedSectionVars false

namespace Verif.Merge

open Verif.Opt (Row and3 eq3)

variable {α : Type} [DecidableEq α]

theorem eraseDups_nodup {β : Type} [BEq β] [LawfulBEq β] (l : List β) : l.eraseDups.Nodup := by
  generalize hn : l.length = n
  induction n using Nat.strongRecOn generalizing l with
  | _ n ih =>
    cases l with
    | nil => simp
    | cons a as =>
      rw [List.eraseDups_cons]
      refine List.nodup_cons.mpr ⟨?_, ih _ ?_ _ rfl⟩
      · rw [List.mem_eraseDups, List.mem_filter]
        simp
      · subst hn
        have := List.length_filter_le (fun b => !b == a) as
        simp only [List.length_cons]
        omega

theorem Tame.at {o : Options α} {T : List (TRow α)} {S : List (Row α)} (h : Tame o T S) {t : TRow α × Nat}
    (ht : t ∈ T.zipIdx) :
    (Spec.matchesOf o S t.1.vals).length ≤ 1 ∨ Spec.LoneDelete o ∨ o.matched = [] :=
  h t.1 (List.fst_mem_of_mem_zipIdx ht)

theorem exists_zipIdx {T : List (TRow α)} {t : TRow α} (h : t ∈ T) : ∃ i, (t, i) ∈ T.zipIdx := by
  obtain ⟨i, hi, rfl⟩ := List.getElem_of_mem h
  exact ⟨i, by rw [List.mem_zipIdx_iff_getElem?]; simp [hi]⟩

/-- The target rows that some joined row with a property comes from. -/
theorem joined_iff {o : Options α} {T : List (TRow α)} {S : List (Row α)} {β : Type} (P : JRow α → Prop)
    (g : TRow α → β) (hP : ∀ t ∈ T.zipIdx, (∃ j ∈ jsOf o S t, P j) ↔ Spec.fate o S t.1.vals ≠ .keep)
    (hn : ∀ s : Row α, ¬ P ⟨none, some s⟩) (x : β) :
    (∃ j ∈ fullJoin (joins o.on) T S, P j ∧ j.t.map (fun t => g t.1) = some x) ↔
      ∃ t ∈ T, g t = x ∧ Spec.fate o S t.vals ≠ .keep := by
  rw [fullJoin_eq]
  constructor
  · rintro ⟨j, hj, hPj, hg⟩
    rcases List.mem_append.1 hj with hj | hj
    · obtain ⟨t, ht, hj⟩ := List.mem_flatMap.1 hj
      refine ⟨t.1, List.fst_mem_of_mem_zipIdx ht, ?_, (hP t ht).1 ⟨j, hj, hPj⟩⟩
      rw [jsOf_t hj] at hg
      simpa using hg
    · obtain ⟨s, _, rfl⟩ := List.mem_map.1 hj
      exact absurd hPj (hn s)
  · rintro ⟨t, ht, hg, hf⟩
    obtain ⟨i, hi⟩ := exists_zipIdx ht
    obtain ⟨j, hj, hPj⟩ := (hP (t, i) hi).2 hf
    refine ⟨j, List.mem_append.2 (.inl (List.mem_flatMap.2 ⟨_, hi, hj⟩)), hPj, ?_⟩
    rw [jsOf_t hj]
    simp [hg]

/-- The touched files are the files of the rows that the statement does not keep. -/
theorem touchedPlan_ok {o : Options α} {unique : Bool} {T : List (TRow α)} {S : List (Row α)} {l : List Nat}
    (hu : unique = true → Spec.Single o T S) (h : touchedPlan o (needsCheck o unique) T S = .ok l) :
    Tame o T S ∧ ∀ f, f ∈ l ↔ ∃ t ∈ T, t.file = f ∧ Spec.fate o S t.vals ≠ .keep := by
  rw [touchedPlan] at h
  cases hj : checkedJoin o (needsCheck o unique) T S with
  | error e => rw [hj] at h; exact nomatch h
  | ok js =>
    rw [hj] at h
    cases h
    obtain ⟨rfl, ht⟩ := checkedJoin_ok hu hj
    refine ⟨ht, fun f => ?_⟩
    rw [← joined_iff (fun j => rewriteFilter o j = some true) (fun t => t.file)
      (fun t h => rewrite_iff (ht.at h)) (fun s => rewriteFilter_insert o (some s)) f]
    simp only [List.mem_eraseDups, List.mem_filterMap, List.mem_filter, beq_iff_eq, and_assoc]

theorem touchedPlan_nodup {o : Options α} {check : Bool} {T : List (TRow α)} {S : List (Row α)} {l : List Nat}
    (h : touchedPlan o check T S = .ok l) : l.Nodup := by
  rw [touchedPlan] at h
  cases hj : checkedJoin o check T S with
  | error e => rw [hj] at h; exact nomatch h
  | ok js =>
    rw [hj] at h
    cases h
    exact eraseDups_nodup _

theorem deletePlan_ok {o : Options α} {unique : Bool} {T : List (TRow α)} {S : List (Row α)} {l : List (Nat × Nat)}
    (hu : unique = true → Spec.Single o T S) (h : deletePlan o (needsCheck o unique) T S = .ok l) :
    Tame o T S ∧ ∀ x, x ∈ l ↔ ∃ t ∈ T, (t.file, t.pos) = x ∧ Spec.fate o S t.vals ≠ .keep := by
  rw [deletePlan] at h
  cases hj : checkedJoin o (needsCheck o unique) T S with
  | error e => rw [hj] at h; exact nomatch h
  | ok js =>
    rw [hj] at h
    cases h
    obtain ⟨rfl, ht⟩ := checkedJoin_ok hu hj
    refine ⟨ht, fun x => ?_⟩
    rw [← joined_iff (fun j => rowDelete o j = some true) (fun t => (t.file, t.pos))
      (fun t h => rowDelete_iff (ht.at h)) (fun s => rowDelete_insert o (some s)) x]
    simp only [List.mem_filterMap, List.mem_filter, beq_iff_eq, and_assoc]

/-- A row of the table is hidden iff the statement does not keep it: no two rows are at the same place. -/
theorem hidden_iff {o : Options α} {T : List (TRow α)} {S : List (Row α)} (hst : Spec.Stored o T)
    {l : List (Nat × Nat)}
    (hl : ∀ x, x ∈ l ↔ ∃ t ∈ T, (t.file, t.pos) = x ∧ Spec.fate o S t.vals ≠ .keep) {t : TRow α} (ht : t ∈ T) :
    (t.file, t.pos) ∈ l ↔ Spec.fate o S t.vals ≠ .keep := by
  rw [hl]
  constructor
  · rintro ⟨u, hu, he, hf⟩
    have : u = t := by
      have := List.inj_on_of_nodup_map hst.places hu ht he
      exact this
    exact this ▸ hf
  · intro h
    exact ⟨t, ht, rfl, h⟩

/-! ## Rows of the write plan, by their path -/

theorem expanded_inserts (o : Options α) (T : List (TRow α)) (S : List (Row α)) :
    (expanded o T S ++ [metricRow o S]).filter (fun p => p.file.isNone) =
      ((Spec.unmatched o T S).filter (fun s => (Spec.pick (fun p => p s) o.inserts).isSome)).map
        (fun s => outRow o ⟨none, some s⟩) ++ [metricRow o S] := by
  rw [expanded, List.filter_append, List.filter_append]
  have h1 : ((T.zipIdx.flatMap (jsOf o S)).map (outRow o)).filter (fun p => p.file.isNone) = [] := by
    rw [List.filter_eq_nil_iff]
    intro p hp
    obtain ⟨j, hj, rfl⟩ := List.mem_map.1 hp
    obtain ⟨t, _, hj⟩ := List.mem_flatMap.1 hj
    have : (outRow o j).file = some t.1.file := by
      show j.t.map (fun t => t.1.file) = _
      rw [jsOf_t hj]
      rfl
    rw [this]
    simp
  have h2 : (((Spec.unmatched o T S).filter (fun s => (Spec.pick (fun p => p s) o.inserts).isSome)).map
      (fun s => outRow o ⟨none, some s⟩)).filter (fun p => p.file.isNone) = _ :=
    List.filter_eq_self.2 (fun p hp => by
      obtain ⟨s, _, rfl⟩ := List.mem_map.1 hp
      rfl)
  rw [h1, h2]
  rfl

/-- The rows with a path in a set of files. -/
def inFiles (l : List Nat) (p : PRow α) : Bool :=
  match p.file with
  | some f => l.contains f
  | none => false

/-- If no file is listed twice, the join only selects rows. -/
theorem joinFiles_eq {l : List Nat} (hl : l.Nodup) (rows : List (PRow α)) :
    joinFiles l rows = rows.filter (inFiles l) := by
  induction rows with
  | nil => rfl
  | cons p rows ih =>
    rw [joinFiles, List.flatMap_cons, ← joinFiles, ih, List.filter_cons]
    have hone : (l.filter (fun f => p.file == some f)).map (fun _ => p) = if inFiles l p then [p] else [] := by
      cases hf : p.file with
      | none => simp [inFiles, hf]
      | some x =>
        have hx : (fun f => (some x : Option Nat) == some f) = (fun f => f == x) := by
          funext f
          rw [Bool.eq_iff_iff, beq_iff_eq, beq_iff_eq]
          exact ⟨fun h => (Option.some.inj h).symm, fun h => congrArg some h.symm⟩
        rw [hx, List.filter_beq]
        simp only [inFiles, hf, List.contains_eq_mem, decide_eq_true_eq]
        split_ifs with hm
        · rw [List.count_eq_one_of_mem hl hm]
          rfl
        · rw [List.count_eq_zero_of_not_mem hm]
          rfl
    rw [hone]
    split_ifs <;> rfl

theorem expanded_files (o : Options α) (T : List (TRow α)) (S : List (Row α)) (l : List Nat) :
    (expanded o T S ++ [metricRow o S]).filter (inFiles l) =
      ((T.zipIdx.filter (fun t => l.contains t.1.file)).flatMap (jsOf o S)).map (outRow o) := by
  rw [expanded, List.filter_append, List.filter_append]
  have h2 : (((Spec.unmatched o T S).filter (fun s => (Spec.pick (fun p => p s) o.inserts).isSome)).map
      (fun s => outRow o ⟨none, some s⟩)).filter (inFiles l) = [] := by
    rw [List.filter_eq_nil_iff]
    intro p hp
    obtain ⟨s, _, rfl⟩ := List.mem_map.1 hp
    simp [inFiles, outRow, genRow, project]
  have h3 : [metricRow o S].filter (inFiles l) = [] := rfl
  rw [h2, h3, List.append_nil, List.append_nil]
  generalize T.zipIdx = X
  induction X with
  | nil => rfl
  | cons t X ih =>
    rw [List.flatMap_cons, List.map_append, List.filter_append, ih, List.filter_cons]
    have hf : ∀ j ∈ jsOf o S t, inFiles l (outRow o j) = l.contains t.1.file := by
      intro j hj
      have : (outRow o j).file = some t.1.file := by
        show j.t.map (fun t => t.1.file) = _
        rw [jsOf_t hj]
        rfl
      simp only [inFiles, this]
    split_ifs with hc
    · rw [List.flatMap_cons, List.map_append]
      congr 1
      rw [List.filter_eq_self]
      intro p hp
      obtain ⟨j, hj, rfl⟩ := List.mem_map.1 hp
      rw [hf j hj, hc]
    · have : ((jsOf o S t).map (outRow o)).filter (inFiles l) = [] := by
        rw [List.filter_eq_nil_iff]
        intro p hp
        obtain ⟨j, hj, rfl⟩ := List.mem_map.1 hp
        rw [hf j hj]
        exact hc
      rw [this, List.nil_append]

theorem written_flatMap (o : Options α) (keep : Op → Bool) (f : TRow α × Nat → List (JRow α))
    (X : List (TRow α × Nat)) :
    written o keep (X.flatMap f) = X.flatMap (fun t => written o keep (f t)) := by
  induction X with
  | nil => rfl
  | cons t X ih => rw [List.flatMap_cons, written_append, ih, List.flatMap_cons]

theorem flatMap_congr' {β γ : Type} {f g : β → List γ} : ∀ {l : List β}, (∀ x ∈ l, f x = g x) →
    l.flatMap f = l.flatMap g
  | [], _ => rfl
  | a :: l, h => by
    rw [List.flatMap_cons, List.flatMap_cons, h a (by simp), flatMap_congr' (fun x hx => h x (by simp [hx]))]

/-- The rows inserted by the write plan. -/
theorem inserted_rows {o : Options α} {T : List (TRow α)} {S : List (Row α)} (hS : Spec.Sourced o S)
    {keep : Op → Bool} (hk : keep .insert = true) (hm : keep .sourceMetric = false) :
    (((expanded o T S ++ [metricRow o S]).filter (fun p => p.file.isNone)).filter (fun p => keep p.op)).map (·.vals) =
      (Spec.unmatched o T S).filterMap (Spec.inserted o) := by
  rw [expanded_inserts, List.filter_append, List.map_append,
    written_insert hk (fun s hs => hS s (unmatched_mem hs))]
  have : [metricRow o S].filter (fun p => keep p.op) = [] := by
    rw [List.filter_eq_nil_iff]
    intro p hp
    rw [List.mem_singleton.1 hp]
    simp [metricRow, hm]
  rw [this, List.map_nil, List.append_nil]

/-- The rows of files that the write plan rewrites. -/
theorem rewritten_rows {o : Options α} (hv : Spec.Valid o) {T : List (TRow α)} (hst : Spec.Stored o T)
    {S : List (Row α)} (hS : Spec.Sourced o S) (l : List Nat)
    (h1 : ∀ t ∈ T, t.file ∈ l → (Spec.matchesOf o S t.vals).length ≤ 1 ∨ Spec.LoneDelete o) :
    (((expanded o T S ++ [metricRow o S]).filter (inFiles l)).filter (fun p => p.op.isWritten)).map (·.vals) =
      (T.filter (fun t => l.contains t.file)).filterMap (fun t => Spec.replacement o S t.vals) := by
  rw [expanded_files]
  show written o Op.isWritten _ = _
  rw [written_flatMap]
  have : (T.zipIdx.filter (fun t => l.contains t.1.file)).flatMap (fun t => written o Op.isWritten (jsOf o S t)) =
      (T.zipIdx.filter (fun t => l.contains t.1.file)).flatMap (fun t => (Spec.replacement o S t.1.vals).toList) := by
    apply flatMap_congr'
    intro t ht
    obtain ⟨ht, hl⟩ := List.mem_filter.1 ht
    have htT := List.fst_mem_of_mem_zipIdx ht
    exact written_jsOf hv hS (hst.good htT) (h1 t.1 htT (by simpa using hl))
  rw [this, zipIdx_filter_flatMap (fun t : TRow α => l.contains t.file)
      (fun t => (Spec.replacement o S t.vals).toList),
    flatMap_toList]

/-- Rows that are kept, beside rows that are replaced. -/
theorem split_perm {o : Options α} {S : List (Row α)} (T : List (TRow α)) (c : TRow α → Bool)
    (hc : ∀ t ∈ T, c t = false → Spec.fate o S t.vals = .keep) :
    ((T.filter (fun t => !c t)).map (·.vals) ++
      (T.filter c).filterMap (fun t => Spec.replacement o S t.vals)).Perm
      (T.filterMap (fun t => Spec.replacement o S t.vals)) := by
  have h1 : (T.filter (fun t => !c t)).map (·.vals) =
      (T.filter (fun t => !c t)).filterMap (fun t => Spec.replacement o S t.vals) := by
    rw [← List.filterMap_eq_map]
    apply List.filterMap_congr
    intro t ht
    obtain ⟨ht, hn⟩ := List.mem_filter.1 ht
    rw [replacement_keep (hc t ht (by simpa using hn))]
    rfl
  rw [h1, ← List.filterMap_append]
  apply List.Perm.filterMap
  exact (List.perm_append_comm).trans (List.filter_append_perm c T)

/-- Rows that are kept, beside the new versions of updated rows. -/
theorem keep_update_perm {o : Options α} {S : List (Row α)} (T : List (TRow α)) (c : TRow α → Bool)
    (hc : ∀ t ∈ T, c t = true ↔ Spec.fate o S t.vals ≠ .keep) :
    ((T.filter (fun t => !c t)).map (·.vals) ++
      T.filterMap (fun t => fateNew o (Spec.fate o S t.vals))).Perm
      (T.filterMap (fun t => Spec.replacement o S t.vals)) := by
  refine List.Perm.trans ?_ (split_perm T c (fun t ht h => ?_))
  · apply List.Perm.append_left
    have : T.filterMap (fun t => fateNew o (Spec.fate o S t.vals)) =
        (T.filter c).filterMap (fun t => Spec.replacement o S t.vals) := by
      rw [List.filterMap_filter]
      apply List.filterMap_congr
      intro t ht
      rw [replacement_eq]
      cases hf : Spec.fate o S t.vals with
      | keep =>
        have : c t = false := by
          cases hct : c t with
          | false => rfl
          | true => exact absurd hf ((hc t ht).1 hct)
        simp [this, fateNew]
      | delete =>
        have : c t = true := (hc t ht).2 (by simp [hf])
        simp [this, fateNew, fateOut]
      | update r =>
        have : c t = true := (hc t ht).2 (by simp [hf])
        simp [this, fateNew, fateOut]
    rw [this]
  · cases hf : Spec.fate o S t.vals with
    | keep => rfl
    | delete => rw [(hc t ht).2 (by simp [hf])] at h; exact nomatch h
    | update r => rw [(hc t ht).2 (by simp [hf])] at h; exact nomatch h

/-! ## The fast append -/

theorem caseWhen_map {C A β : Type} (holds : C → Option Bool) (f : A → β) (d : β) : ∀ cs : List (Clause C A),
    caseWhen (cs.map (fun cl => ((cl.cond.map holds).getD (some true), f cl.action))) d =
      ((Spec.pick holds cs).map f).getD d
  | [] => rfl
  | c :: cs => by
    rw [List.map_cons, caseWhen, caseWhen_map holds f d cs, pick_eq, pick_eq, List.find?_cons]
    split_ifs with h
    · rw [h]
      rfl
    · have : ((c.cond.map holds).getD (some true) == some true) = false := by simpa using h
      rw [this]

theorem fastOp_eq (o : Options α) (s : Row α) :
    fastOp o s = if (Spec.pick (fun p => p s) o.inserts).isSome then .insert else .noop := by
  rw [fastOp, caseWhen]
  have : disj (o.inserts.map (fun c => ((c.cond.map (fun p => p s)).getD (some true)))) = some true ↔
      (Spec.pick (fun p => p s) o.inserts).isSome = true := by
    rw [disj_true, pick_isSome, List.mem_map]
  simp only [this]
  rfl

theorem fastProject_vals {o : Options α} {s : Row α} (hs : s.length = o.source.length)
    {a : InsertAction α} (hp : Spec.pick (fun p => p s) o.inserts = some a) :
    (fastProject o s).vals = Spec.insertValues o s a := by
  rw [← insertBranch_eq hs a, fastProject]
  apply List.map_congr_left
  intro c _
  rw [caseWhen_map (fun p : Row α → Option Bool => p s) (insertBranch o s c), hp]
  rfl

theorem fast_unmatched (o : Options α) (T : List (TRow α)) (S : List (Row α)) :
    S.filter (fun s => !T.any (fun t => joins o.on t.vals s)) = Spec.unmatched o T S := by
  rw [Spec.unmatched]
  apply List.filter_congr
  intro s _
  simp only [joins_eq]
  rw [List.all_eq_not_any_not]
  simp only [bne, Bool.not_not]

theorem fast_written {o : Options α} {keep : Op → Bool} (hk : keep .insert = true) (hn : keep .noop = false) :
    ∀ {l : List (Row α)}, (∀ s ∈ l, s.length = o.source.length) →
    ((l.map (fun s => genRow o (fastProject o s))).filter (fun p => keep p.op)).map (·.vals) =
      l.filterMap (Spec.inserted o)
  | [], _ => rfl
  | s :: l, hl => by
    have ih := fast_written hk hn (fun x hx => hl x (by simp [hx]) : ∀ x ∈ l, x.length = o.source.length)
    rw [List.map_cons, List.filter_cons, List.filterMap_cons]
    have hop : (genRow o (fastProject o s)).op =
        if (Spec.pick (fun p => p s) o.inserts).isSome then .insert else .noop := fastOp_eq o s
    rw [hop]
    cases hp : Spec.pick (fun p => p s) o.inserts with
    | none =>
      have hi : Spec.inserted o s = none := by rw [Spec.inserted, hp]; rfl
      simp [hn, hi, ih]
    | some a =>
      have hi : Spec.inserted o s = some (Spec.generated o (Spec.insertValues o s a)) := by
        rw [Spec.inserted, hp]; rfl
      have hg : (genRow o (fastProject o s)).vals = Spec.generated o (Spec.insertValues o s a) := by
        rw [genRow, fastProject_vals (hl s (by simp)) hp]
      simp [hk, hi, ih, hg]

theorem fastPlan_ok {o : Options α} (hv : Spec.Valid o) {T : List (TRow α)} {S : List (Row α)}
    (hS : Spec.Sourced o S) {l : List (PRow α)} (h : fastPlan o T S = .ok l) {keep : Op → Bool}
    (hk : keep .insert = true) (hn : keep .noop = false) :
    (l.filter (fun p => keep p.op)).map (·.vals) = (Spec.unmatched o T S).filterMap (Spec.inserted o) := by
  rw [fastPlan] at h
  obtain ⟨rfl, _⟩ := finishRows_ok hv h
  rw [List.append_nil, List.map_append, List.filter_append, List.map_append, fast_unmatched, List.map_map]
  have h1 : ((((Spec.unmatched o T S).map (genRow o ∘ fastProject o))).filter (fun p => keep p.op)).map (·.vals) =
      (Spec.unmatched o T S).filterMap (Spec.inserted o) :=
    fast_written hk hn (fun s hs => hS s (unmatched_mem hs))
  rw [h1]
  have h2 : ((((S.filter (fun s => T.any (fun t => joins o.on t.vals s))).map (fun _ => noopRow o)).map
      (genRow o))).filter (fun p => keep p.op) = [] := by
    rw [List.filter_eq_nil_iff]
    intro p hp
    obtain ⟨q, hq, rfl⟩ := List.mem_map.1 hp
    obtain ⟨_, _, rfl⟩ := List.mem_map.1 hq
    simp [genRow, noopRow, hn]
  rw [h2, List.map_nil, List.append_nil]

theorem insertOnly_iff {o : Options α} (h : insertOnly o = true) : o.matched = [] ∧ o.bySource = [] := by
  simp only [insertOnly, Bool.and_eq_true, List.isEmpty_iff] at h
  exact h.1

/-- Without clauses for target rows, they are all kept. -/
theorem fate_keep {o : Options α} (hm : o.matched = []) (hb : o.bySource = []) (S : List (Row α)) (t : Row α) :
    Spec.fate o S t = .keep := by
  rw [Spec.fate, hm, hb]
  cases Spec.matchesOf o S t <;> rfl

theorem replacement_all {o : Options α} (hm : o.matched = []) (hb : o.bySource = []) (T : List (TRow α))
    (S : List (Row α)) : T.filterMap (fun t => Spec.replacement o S t.vals) = T.map (·.vals) := by
  rw [← List.filterMap_eq_map]
  apply List.filterMap_congr
  intro t _
  rw [replacement_keep (fate_keep hm hb S t.vals)]
  rfl

end Verif.Merge
