import Verif.Iceberg.ProtocolLemmas
import Verif.Iceberg.SnapshotProps

/-! Properties C57 and C58: concurrent commits to Iceberg path tables, and their visibility. -/

namespace Verif.Iceberg.Protocol

open Verif.Iceberg.Protocol.Spec

variable {M C : Type}

/-- The changes of the writers in the order of their names. -/
def changesOf (cs : List C) (order : List Nat) : List C := order.filterMap fun i => cs[i]?

theorem changesOf_append (cs : List C) (o : List Nat) (i : Nat) (c : C) (h : cs[i]? = some c) :
    changesOf cs (o ++ [i]) = changesOf cs o ++ [c] := by
  simp [changesOf, h]

/-- What is known of a writer. -/
def PcOk (T : Ops M C) (n : Nat) (s : St M C) (i : Nat) (p : Proc M C) : Prop :=
  match p.pc with
  | .start => i ∉ s.order
  | .hinted _ => i ∉ s.order
  | .selected v => i ∉ s.order ∧ (at? s.files v).isSome = true
  | .loaded v m => i ∉ s.order ∧ ∃ x, at? s.files v = some x ∧ T.apply x p.change = some m
  | .checked v m => i ∉ s.order ∧ ∃ x, at? s.files v = some x ∧ T.apply x p.change = some m
  | .boot _ _ => False
  | .create _ => False
  | .written v => ∃ j, s.order[j]? = some i ∧ v = n + j + 1
  | .done v => ∃ j, s.order[j]? = some i ∧ v = n + j + 1
  | .failed => i ∉ s.order
  | .crashed => True

/-- The invariant of C57. -/
structure Inv (T : Ops M C) (files : List (Nat × M)) (n : Nat) (m0 : M) (cs : List C)
    (s : St M C) : Prop where
  changes : ∀ (i : Nat) p, s.procs[i]? = some p → cs[i]? = some p.change
  nodup : s.order.Nodup
  names : ∀ i ∈ s.order, i < cs.length
  chain : ∀ k, k ≤ s.order.length → ∃ x, applied T m0 (changesOf cs (s.order.take k)) = some x ∧
    at? s.files (n + k) = some x
  top : ∀ v, n + s.order.length < v → at? s.files v = none
  old : ∀ v, v ≤ n → at? s.files v = at? files v
  gap : ∀ v, v < n → (at? s.files v).isSome = true → (at? s.files (v + 1)).isSome = true
  snap : ∀ v x, at? s.files v = some x → T.hasSnap x = true
  pcs : ∀ (i : Nat) p, s.procs[i]? = some p → PcOk T n s i p

theorem inv_init (T : Ops M C) {files : List (Nat × M)} {n : Nat} {m0 : M} (cs : List C)
    (hint : Option Nat) (h : StartsAt T files n m0) :
    Inv T files n m0 cs (init files hint cs) := by
  obtain ⟨h1, h2, h3, h4⟩ := h
  have hget : ∀ (i : Nat) p, (init files hint cs).procs[i]? = some p →
      cs[i]? = some p.change ∧ p.pc = .start := by
    intro i p hp
    simp only [init, List.getElem?_map, Option.map_eq_some_iff] at hp
    obtain ⟨c, hc, rfl⟩ := hp
    exact ⟨hc, rfl⟩
  refine ⟨fun i p hp => (hget i p hp).1, by simp [init], by simp [init], ?_, ?_, fun _ _ => rfl, h3,
    h4, ?_⟩
  · intro k hk
    have : k = 0 := by simpa [init] using hk
    subst this
    exact ⟨m0, rfl, h1⟩
  · intro v hv
    exact h2 v (by simpa [init] using hv)
  · intro i p hp
    simp only [PcOk, (hget i p hp).2]
    simp [init]

/-- Only the writer changes. -/
theorem inv_setProc {T : Ops M C} {files : List (Nat × M)} {n : Nat} {m0 : M} {cs : List C}
    {s : St M C} (hI : Inv T files n m0 cs s) {i : Nat} {p q : Proc M C}
    (hp : s.procs[i]? = some p) (hc : q.change = p.change) (hq : PcOk T n s i q) :
    Inv T files n m0 cs (setProc s i q) := by
  have hget := fun j => setProc_get s i j q p hp
  refine ⟨?_, hI.nodup, hI.names, hI.chain, hI.top, hI.old, hI.gap, hI.snap, ?_⟩
  · intro j r hr
    rw [hget] at hr
    split_ifs at hr with h
    · obtain rfl := Option.some.inj hr
      subst h
      rw [hc]
      exact hI.changes j p hp
    · exact hI.changes j r hr
  · intro j r hr
    rw [hget] at hr
    split_ifs at hr with h
    · obtain rfl := Option.some.inj hr
      subst h
      exact hq
    · exact hI.pcs j r hr

theorem retry_ok (T : Ops M C) (n : Nat) (s : St M C) (i : Nat) (p : Proc M C)
    (h : i ∉ s.order) : PcOk T n s i (retry p) ∧ (retry p).change = p.change := by
  simp only [retry]
  split_ifs
  · exact ⟨h, rfl⟩
  · exact ⟨h, rfl⟩

/-- A version can only be created on top of the last one. -/
theorem inv_last {T : Ops M C} {files : List (Nat × M)} {n : Nat} {m0 : M} {cs : List C}
    {s : St M C} (hI : Inv T files n m0 cs s) {v : Nat} (h1 : (at? s.files v).isSome = true)
    (h2 : at? s.files (v + 1) = none) : v = n + s.order.length := by
  rcases Nat.lt_trichotomy v (n + s.order.length) with h | h | h
  · exfalso
    by_cases hn : v < n
    · have := hI.gap v hn h1
      simp [h2] at this
    · obtain ⟨x, -, hx⟩ := hI.chain (v + 1 - n) (by omega)
      have : n + (v + 1 - n) = v + 1 := by omega
      rw [this, h2] at hx
      simp at hx
  · exact h
  · rw [hI.top v h] at h1
    simp at h1

theorem inv_step {T : Ops M C} {files : List (Nat × M)} {n : Nat} {m0 : M} {cs : List C}
    (hsnap : ∀ m c m', T.hasSnap m = true → T.apply m c = some m' → T.hasSnap m' = true)
    {s : St M C} (hI : Inv T files n m0 cs s) (e : Nat × Choice) :
    Inv T files n m0 cs (step T s e) := by
  obtain ⟨i, ch⟩ := e
  simp only [step]
  cases hp : s.procs[i]? with
  | none => exact hI
  | some p =>
    simp only
    have hpo := hI.pcs i p hp
    have hne : s.files ≠ [] := by
      intro h
      obtain ⟨x, -, hx⟩ := hI.chain 0 (by omega)
      simp [h, at?] at hx
    split_ifs with hch
    · exact inv_setProc hI hp rfl (by simp only [PcOk])
    · cases hpc : p.pc with
      | start =>
        simp only [PcOk, hpc] at hpo
        simp only [advance, hpc]
        exact inv_setProc hI hp rfl (by simpa only [PcOk] using hpo)
      | hinted h =>
        simp only [PcOk, hpc] at hpo
        simp only [advance, hpc]
        obtain ⟨v, hv⟩ := Option.isSome_iff_exists.1 (select_isSome (h := h) hne)
        rw [hv]
        exact inv_setProc hI hp rfl (by simpa only [PcOk] using ⟨hpo, select_some hv⟩)
      | selected v =>
        simp only [PcOk, hpc] at hpo
        obtain ⟨hpo1, hpo2⟩ := hpo
        simp only [advance, hpc]
        obtain ⟨x, hx⟩ := Option.isSome_iff_exists.1 hpo2
        rw [hx]
        simp only [afterLoad]
        cases ha : T.apply x p.change with
        | none => exact inv_setProc hI hp rfl (by simpa only [PcOk] using hpo1)
        | some m' =>
          simp only [hI.snap v x hx, if_true]
          exact inv_setProc hI hp rfl (by simpa only [PcOk] using ⟨hpo1, x, hx, ha⟩)
      | loaded v m =>
        simp only [PcOk, hpc] at hpo
        obtain ⟨hpo1, hpo2⟩ := hpo
        simp only [advance, hpc]
        split_ifs with h
        · obtain ⟨r1, r2⟩ := retry_ok T n s i p hpo1
          exact inv_setProc hI hp r2 r1
        · exact inv_setProc hI hp rfl (by simpa only [PcOk] using ⟨hpo1, hpo2⟩)
      | checked v m =>
        simp only [PcOk, hpc] at hpo
        obtain ⟨hpo1, x, hx, ha⟩ := hpo
        simp only [advance, hpc]
        split_ifs with h
        · obtain ⟨r1, r2⟩ := retry_ok T n s i p hpo1
          exact inv_setProc hI hp r2 r1
        · have hnone : at? s.files (v + 1) = none := by simpa using h
          have hv := inv_last hI (by rw [hx]; rfl) hnone
          subst hv
          have hcs := hI.changes i p hp
          obtain ⟨y, hy1, hy2⟩ := hI.chain s.order.length (Nat.le_refl _)
          rw [hx] at hy2
          obtain rfl := Option.some.inj hy2
          rw [List.take_length] at hy1
          have hi : i < cs.length := (List.getElem?_eq_some_iff.1 hcs).1
          refine ⟨?_, ?_, ?_, ?_, ?_, ?_, ?_, ?_, ?_⟩
          · intro j r hr
            have hr' := setProc_get s i j { p with pc := .written (n + s.order.length + 1) } p hp
            simp only at hr
            rw [hr'] at hr
            split_ifs at hr with hj
            · obtain rfl := Option.some.inj hr
              subst hj
              exact hcs
            · exact hI.changes j r hr
          · simp only
            rw [List.nodup_append]
            refine ⟨hI.nodup, by simp, ?_⟩
            intro a ha' b hb
            simp only [List.mem_singleton] at hb
            subst hb
            intro hab
            subst hab
            exact hpo1 ha'
          · intro j hj
            rcases List.mem_append.1 hj with hj | hj
            · exact hI.names j hj
            · simp only [List.mem_singleton] at hj
              omega
          · intro k hk
            simp only [List.length_append, List.length_singleton] at hk
            rcases Nat.lt_or_ge s.order.length k with hlt | hle
            · have : k = s.order.length + 1 := by omega
              subst this
              refine ⟨m, ?_, ?_⟩
              · simp only
                rw [List.take_of_length_le (by simp), changesOf_append cs _ _ _ hcs,
                  applied_append, hy1]
                exact ha
              · simp only [at?_putFile, ← Nat.add_assoc, if_true]
            · obtain ⟨z, hz1, hz2⟩ := hI.chain k hle
              refine ⟨z, ?_, ?_⟩
              · simp only
                rw [List.take_append_of_le_length hle]
                exact hz1
              · rw [at?_putFile, if_neg (by omega)]
                exact hz2
          · intro w hw
            simp only [List.length_append, List.length_singleton] at hw
            rw [at?_putFile, if_neg (by omega)]
            exact hI.top w (by omega)
          · intro w hw
            rw [at?_putFile, if_neg (by omega)]
            exact hI.old w hw
          · intro w hw h1
            simp only [at?_putFile] at h1 ⊢
            split_ifs at h1 ⊢
            · rfl
            · rfl
            · omega
            · exact hI.gap w hw h1
          · intro w z hz
            rw [at?_putFile] at hz
            split_ifs at hz
            · obtain rfl := Option.some.inj hz
              exact hsnap x p.change _ (hI.snap _ x hx) ha
            · exact hI.snap w z hz
          · intro j r hr
            have hr' := setProc_get s i j { p with pc := .written (n + s.order.length + 1) } p hp
            simp only at hr
            rw [hr'] at hr
            split_ifs at hr with hj
            · obtain rfl := Option.some.inj hr
              subst hj
              simp only [PcOk]
              exact ⟨s.order.length, by simp, by omega⟩
            · have hold := hI.pcs j r hr
              have hkeep : ∀ w x, at? s.files w = some x →
                  at? (putFile (n + s.order.length + 1) m s.files) w = some x := by
                intro w x hw
                rw [at?_putFile, if_neg]
                · exact hw
                · intro hc
                  subst hc
                  rw [hnone] at hw
                  simp at hw
              have hnin : j ∉ s.order → j ∉ s.order ++ [i] := by
                intro h1 h2
                rcases List.mem_append.1 h2 with h2 | h2
                · exact h1 h2
                · exact hj (by simpa using h2)
              cases hrc : r.pc <;> simp only [PcOk, hrc] at hold ⊢
              · exact hnin hold
              · exact hnin hold
              · refine ⟨hnin hold.1, ?_⟩
                obtain ⟨x, hx⟩ := Option.isSome_iff_exists.1 hold.2
                rw [hkeep _ x hx]
                rfl
              · obtain ⟨h1, x, h2, h3⟩ := hold
                exact ⟨hnin h1, x, hkeep _ x h2, h3⟩
              · obtain ⟨h1, x, h2, h3⟩ := hold
                exact ⟨hnin h1, x, hkeep _ x h2, h3⟩
              · obtain ⟨k, h1, h2⟩ := hold
                have hlt : k < s.order.length := (List.getElem?_eq_some_iff.1 h1).1
                exact ⟨k, by rw [List.getElem?_append_left hlt]; exact h1, h2⟩
              · obtain ⟨k, h1, h2⟩ := hold
                have hlt : k < s.order.length := (List.getElem?_eq_some_iff.1 h1).1
                exact ⟨k, by rw [List.getElem?_append_left hlt]; exact h1, h2⟩
              · exact hnin hold
      | boot v m => simp only [PcOk, hpc] at hpo
      | create m => simp only [PcOk, hpc] at hpo
      | written v =>
        simp only [PcOk, hpc] at hpo
        simp only [advance, hpc]
        have hJ : Inv T files n m0 cs (setProc s i { p with pc := .done v }) :=
          inv_setProc hI hp rfl (by simpa only [PcOk] using hpo)
        exact ⟨hJ.changes, hJ.nodup, hJ.names, hJ.chain, hJ.top, hJ.old, hJ.gap, hJ.snap, hJ.pcs⟩
      | done v => simp only [advance, hpc]; exact hI
      | failed => simp only [advance, hpc]; exact hI
      | crashed => simp only [advance, hpc]; exact hI

theorem inv_run {T : Ops M C} {files : List (Nat × M)} {n : Nat} {m0 : M} (cs : List C)
    (hsnap : ∀ m c m', T.hasSnap m = true → T.apply m c = some m' → T.hasSnap m' = true)
    (hint : Option Nat) (h : StartsAt T files n m0) (es : List (Nat × Choice)) :
    Inv T files n m0 cs (run T (init files hint cs) es) :=
  run_induct T es _ (inv_init T cs hint h) fun _ e _ hs => inv_step hsnap hs e

/-- **C57**: whatever the interleaving, with crashes and lost hints, the versions of the table are the
changes of some writers applied one after the other; every commit that returned is one of them, once,
no failed commit is, and the versions that were there stay. Missing: the first snapshot and the creation
of a table, where it is false. -/
theorem C57_commits_are_serialised_partial {T : Ops M C} {files : List (Nat × M)} {n : Nat} {m0 : M}
    (cs : List C)
    (hsnap : ∀ m c m', T.hasSnap m = true → T.apply m c = some m' → T.hasSnap m' = true)
    (hint : Option Nat) (h : StartsAt T files n m0) (es : List (Nat × Choice)) :
    ∃ order : List Nat, order.Nodup ∧ (∀ i ∈ order, i < cs.length) ∧
      (∀ k, k ≤ order.length →
        ∃ x, applied T m0 ((order.take k).filterMap fun i => cs[i]?) = some x ∧
          at? (run T (init files hint cs) es).files (n + k) = some x) ∧
      (∀ v, n + order.length < v → at? (run T (init files hint cs) es).files v = none) ∧
      (∀ v, v ≤ n → at? (run T (init files hint cs) es).files v = at? files v) ∧
      (∀ (i : Nat) p v, (run T (init files hint cs) es).procs[i]? = some p → p.pc = .done v →
        ∃ j, order[j]? = some i ∧ v = n + j + 1) ∧
      (∀ (i : Nat) p, (run T (init files hint cs) es).procs[i]? = some p → p.pc = .failed →
        i ∉ order) := by
  have hI := inv_run cs hsnap hint h es
  refine ⟨_, hI.nodup, hI.names, hI.chain, hI.top, hI.old, ?_, ?_⟩
  · intro i p v hp hpc
    have := hI.pcs i p hp
    simpa only [PcOk, hpc] using this
  · intro i p hp hpc
    have := hI.pcs i p hp
    simpa only [PcOk, hpc] using this

/-- Commits to tables with a snapshot leave tables with a snapshot. -/
theorem table_hasSnap (m : Commit.Meta) (c : Commit.Change) (m' : Commit.Meta)
    (h : tableOps.hasSnap m = true) (ha : tableOps.apply m c = some m') :
    tableOps.hasSnap m' = true := by
  simp only [tableOps] at h ha ⊢
  obtain ⟨-, s, -, -, rfl⟩ := Commit.commit_some ha
  obtain ⟨f1, -⟩ := Commit.prepared_fields m c
  have hmain : (Commit.install (Commit.prepared m c) (Commit.currentSnapshot m).isSome s).main =
      some s.id := by
    simp only [Commit.install, (Commit.advance_fields _ _).2.2.2.2.1, h, if_true]
  have hsn : (Commit.install (Commit.prepared m c) (Commit.currentSnapshot m).isSome s).snapshots =
      m.snapshots ++ [s] := by
    simp only [Commit.install, (Commit.advance_fields _ _).1, f1]
  generalize Commit.install (Commit.prepared m c) (Commit.currentSnapshot m).isSome s = m2
    at hmain hsn
  simp only [Commit.currentSnapshot, hmain, hsn, Option.or, List.find?_isSome]
  exact ⟨s, by simp, by simp⟩

/-- The example table as version 4 of a path table. -/
def exFiles : List (Nat × Commit.Meta) := [(4, Commit.exMeta)]

example : StartsAt tableOps exFiles 4 Commit.exMeta := by
  refine ⟨rfl, ?_, ?_, ?_⟩
  · intro v hv
    simp [at?, exFiles]
    omega
  · intro v hv h
    simp [at?, exFiles] at h
    omega
  · intro v x hx
    simp only [at?, exFiles, List.find?_cons] at hx
    split at hx
    · obtain rfl := Option.some.inj hx
      decide
    · simp at hx

/-- A small table for examples of runs: the list of the changes so far. -/
def exOps : Ops (List Nat) Nat where
  apply := fun m c => some (m ++ [c])
  first := fun c => some [c]
  hasSnap := fun m => !m.isEmpty

/-- A run of writer `i` for `k` steps. -/
def goOn (i k : Nat) : List (Nat × Choice) := List.replicate k (i, .go)

/-- Two writers at the same time: the second notices the first, tries again and comes after. -/
example : (run exOps (init [(1, [7])] (some 1) [8, 9])
      (goOn 0 4 ++ goOn 1 4 ++ goOn 0 2 ++ goOn 1 1 ++ goOn 1 6)).files =
    [(3, [7, 8, 9]), (2, [7, 8]), (1, [7])] := by decide

/-- **C54** and **C57**: a row-level commit that returned is in the table right after the snapshot it was
planned on. -/
theorem C54_lands_on_the_snapshot_read_concurrently {files : List (Nat × Commit.Meta)} {n : Nat}
    {m0 : Commit.Meta} (cs : List Commit.Change) (hint : Option Nat)
    (h : StartsAt tableOps files n m0) (es : List (Nat × Choice)) (i : Nat)
    (p : Proc Commit.Meta Commit.Change) (v : Nat)
    (hp : (run tableOps (init files hint cs) es).procs[i]? = some p) (hpc : p.pc = .done v)
    (e : Option Int) (he : p.change.expected = some e) :
    ∃ before after x, at? (run tableOps (init files hint cs) es).files (v - 1) = some before ∧
      at? (run tableOps (init files hint cs) es).files v = some after ∧
      Commit.currentSnapshot before = some x ∧ some x.id = e ∧
      Commit.commit before p.change = some after := by
  have hI := inv_run cs table_hasSnap hint h es
  have hpo := hI.pcs i p hp
  simp only [PcOk, hpc] at hpo
  obtain ⟨j, hj, rfl⟩ := hpo
  have hlt : j < _ := (List.getElem?_eq_some_iff.1 hj).1
  obtain ⟨b, hb1, hb2⟩ := hI.chain j (by omega)
  obtain ⟨a, ha1, ha2⟩ := hI.chain (j + 1) (by omega)
  have hcs := hI.changes i p hp
  have hstep : tableOps.apply b p.change = some a := by
    rw [List.take_add_one, hj, Option.toList_some, changesOf_append cs _ _ _ hcs, applied_append,
      hb1] at ha1
    exact ha1
  have hsn := hI.snap _ _ hb2
  simp only [tableOps] at hstep hsn
  obtain ⟨x, hx⟩ := Option.isSome_iff_exists.1 hsn
  refine ⟨b, a, x, ?_, ?_, hx, ?_, hstep⟩
  · have : n + j + 1 - 1 = n + j := by omega
    rw [this]
    exact hb2
  · rw [Nat.add_assoc]
    exact ha2
  · refine Classical.byContradiction fun hne => ?_
    rw [Commit.C54_fails_on_another_snapshot b p.change e he x hx hne] at hstep
    simp at hstep

/-- The example change planned on snapshot 7 lands; a second one planned on the same snapshot fails. -/
example : (run tableOps (init exFiles (some 4)
        [Commit.exChange, { Commit.exChange with newId := 9 }])
      (goOn 0 5 ++ goOn 1 6 ++ goOn 0 2 ++ goOn 1 6)).procs.map (fun p => p.pc) =
    [.done 5, .failed] := by decide

/-- **C57** does not hold in full: two writers give a table its first snapshot at the same time, both
return, and the rows of the first are gone. -/
theorem C57_first_snapshots_overwrite_each_other :
    let s := run exOps (init [(1, [])] (some 1) [8, 9]) (goOn 0 3 ++ goOn 1 3 ++ goOn 0 2 ++ goOn 1 2)
    s.procs.map (fun p => p.pc) = [.done 2, .done 2] ∧ s.files = [(2, [9]), (1, [])] :=
  ⟨by decide, by decide⟩

/-- **C57** does not hold in full: two writers create a table at the same time, both return, and the rows
of the first are gone. -/
theorem C57_creations_overwrite_each_other :
    let s := run exOps (init [] none [8, 9]) (goOn 0 2 ++ goOn 1 2 ++ goOn 0 2 ++ goOn 1 2)
    s.procs.map (fun p => p.pc) = [.done 1, .done 1] ∧ s.files = [(1, [9])] :=
  ⟨by decide, by decide⟩

/-- **C57** does not hold in full: a writer that found no snapshot overwrites the first snapshot written
meanwhile and moves the hint back, so that a later commit on top of that snapshot disappears too. -/
theorem C57_first_snapshot_undoes_later_commits :
    let s := run exOps (init [(1, [])] (some 1) [8, 9, 10])
      (goOn 1 3 ++ goOn 0 5 ++ goOn 2 6 ++ goOn 1 2)
    s.procs.map (fun p => p.pc) = [.done 2, .done 2, .done 3] ∧ visible s = some 2 ∧
      at? s.files 2 = some [9] ∧ at? s.files 3 = some [8, 10] :=
  ⟨by decide, by decide, by decide, by decide⟩

/-! ### Visibility -/

/-- The steps of a run in which no writer dies, and no write of the hint fails, between the write of the
metadata and the end of the commit. -/
def Clean (T : Ops M C) (s : St M C) : List (Nat × Choice) → Prop
  | [] => True
  | e :: es =>
    (∀ p v, s.procs[e.1]? = some p → p.pc = .written v → e.2 = .go) ∧ Clean T (step T s e) es

/-- What is known of a writer if the hint is `h`. -/
def HintOk (n h : Nat) (p : Proc M C) : Prop :=
  match p.pc with
  | .hinted x => ∃ y, x = some y ∧ n ≤ y ∧ y ≤ h
  | .selected v => v ≤ h
  | .loaded v _ => v ≤ h
  | .checked v _ => v ≤ h
  | .done v => v ≤ h
  | _ => True

/-- The invariant of C58. -/
structure InvV (n : Nat) (s : St M C) : Prop where
  hint : ∃ h, s.hint = some h ∧ n ≤ h ∧ (∀ (i : Nat) p, s.procs[i]? = some p → HintOk n h p) ∧
    ((h = n + s.order.length ∧ ∀ (i : Nat) p v, s.procs[i]? = some p → p.pc ≠ .written v) ∨
     (h + 1 = n + s.order.length ∧ ∃ i : Nat, ∀ (j : Nat) p v, s.procs[j]? = some p →
        p.pc = .written v → j = i ∧ v = h + 1))

theorem HintOk.mono {n h k : Nat} {p : Proc M C} (hp : HintOk n h p) (hk : h ≤ k) :
    HintOk n k p := by
  cases hc : p.pc <;> simp only [HintOk, hc] at hp ⊢
  · obtain ⟨y, h1, h2, h3⟩ := hp
    exact ⟨y, h1, h2, by omega⟩
  all_goals omega

/-- A step that changes neither hint nor files and leaves the writer somewhere before the write. -/
theorem invV_setProc {n : Nat} {s : St M C} (hV : InvV n s) {i : Nat} {p q : Proc M C}
    (hp : s.procs[i]? = some p) (hq : ∀ h, s.hint = some h → n ≤ h → HintOk n h q)
    (hw : ∀ v, q.pc ≠ .written v) : InvV n (setProc s i q) := by
  obtain ⟨h, h1, h2, h3, h4⟩ := hV.hint
  have hget := fun j => setProc_get s i j q p hp
  refine ⟨h, h1, h2, ?_, ?_⟩
  · intro j r hr
    rw [hget] at hr
    split_ifs at hr
    · obtain rfl := Option.some.inj hr
      exact hq h h1 h2
    · exact h3 j r hr
  · rcases h4 with ⟨h5, h6⟩ | ⟨h5, k, h6⟩
    · left
      refine ⟨h5, ?_⟩
      intro j r v hr
      rw [hget] at hr
      split_ifs at hr
      · obtain rfl := Option.some.inj hr
        exact hw v
      · exact h6 j r v hr
    · right
      refine ⟨h5, k, ?_⟩
      intro j r v hr hrv
      rw [hget] at hr
      split_ifs at hr
      · obtain rfl := Option.some.inj hr
        exact absurd hrv (hw v)
      · exact h6 j r v hr hrv

theorem retry_hint {n h : Nat} (p : Proc M C) : HintOk n h (retry p) ∧ ∀ v, (retry p).pc ≠ .written v := by
  simp only [retry]
  split_ifs <;> simp [HintOk]

theorem invV_step {T : Ops M C} {files : List (Nat × M)} {n : Nat} {m0 : M} {cs : List C}
    {s : St M C} (hI : Inv T files n m0 cs s) (hV : InvV n s) (e : Nat × Choice)
    (hclean : ∀ p v, s.procs[e.1]? = some p → p.pc = .written v → e.2 = .go) :
    InvV n (step T s e) := by
  obtain ⟨i, ch⟩ := e
  simp only at hclean
  simp only [step]
  cases hp : s.procs[i]? with
  | none => exact hV
  | some p =>
    simp only
    have hpo := hI.pcs i p hp
    obtain ⟨h, h1, h2, h3, h4⟩ := hV.hint
    have hle : h ≤ n + s.order.length := by omega
    have hh := h3 i p hp
    split_ifs with hch
    · exact invV_setProc hV hp (fun h _ _ => by simp only [HintOk]) (by simp)
    · cases hpc : p.pc with
      | start =>
        simp only [advance, hpc]
        refine invV_setProc hV hp (fun k hk hn => ?_) (by simp)
        simp only [HintOk]
        exact ⟨k, hk, hn, Nat.le_refl _⟩
      | hinted x =>
        simp only [HintOk, hpc] at hh
        obtain ⟨y, rfl, hy1, hy2⟩ := hh
        simp only [advance, hpc]
        obtain ⟨z, -, hz⟩ := hI.chain (y - n) (by omega)
        have : n + (y - n) = y := by omega
        rw [this] at hz
        rw [select_hint (by rw [hz]; rfl)]
        refine invV_setProc hV hp (fun k hk hn => ?_) (by simp [afterList])
        simp only [HintOk, afterList]
        rw [h1] at hk
        obtain rfl := Option.some.inj hk
        exact hy2
      | selected v =>
        simp only [HintOk, hpc] at hh
        simp only [PcOk, hpc] at hpo
        simp only [advance, hpc]
        obtain ⟨x, hx⟩ := Option.isSome_iff_exists.1 hpo.2
        rw [hx]
        simp only [afterLoad]
        cases ha : T.apply x p.change with
        | none =>
          exact invV_setProc hV hp (fun k hk hn => by simp only [HintOk]) (by simp)
        | some m' =>
          simp only [hI.snap v x hx, if_true]
          refine invV_setProc hV hp (fun k hk hn => ?_) (by simp)
          simp only [HintOk]
          rw [h1] at hk
          obtain rfl := Option.some.inj hk
          exact hh
      | loaded v m =>
        simp only [HintOk, hpc] at hh
        simp only [advance, hpc]
        split_ifs
        · exact invV_setProc hV hp (fun k hk hn => (retry_hint p).1) (retry_hint (n := 0) (h := 0) p).2
        · refine invV_setProc hV hp (fun k hk hn => ?_) (by simp)
          simp only [HintOk]
          rw [h1] at hk
          obtain rfl := Option.some.inj hk
          exact hh
      | checked v m =>
        simp only [HintOk, hpc] at hh
        simp only [PcOk, hpc] at hpo
        obtain ⟨hpo1, x, hx, ha⟩ := hpo
        simp only [advance, hpc]
        split_ifs with hex
        · exact invV_setProc hV hp (fun k hk hn => (retry_hint p).1) (retry_hint (n := 0) (h := 0) p).2
        · have hnone : at? s.files (v + 1) = none := by simpa using hex
          have hv := inv_last hI (by rw [hx]; rfl) hnone
          have hget := fun j => setProc_get s i j { p with pc := .written (v + 1) } p hp
          have h5 : h = n + s.order.length := by omega
          have h6 : ∀ (i : Nat) p v, s.procs[i]? = some p → p.pc ≠ .written v := by
            rcases h4 with ⟨-, h6⟩ | ⟨h5', -⟩
            · exact h6
            · omega
          refine ⟨h, h1, h2, ?_, Or.inr ⟨?_, i, ?_⟩⟩
          · intro j r hr
            simp only at hr
            rw [hget] at hr
            split_ifs at hr
            · obtain rfl := Option.some.inj hr
              simp only [HintOk]
            · exact h3 j r hr
          · simp only [List.length_append, List.length_singleton]
            omega
          · intro j r w hr hrw
            simp only at hr
            rw [hget] at hr
            split_ifs at hr with hj
            · obtain rfl := Option.some.inj hr
              simp only [Pc.written.injEq] at hrw
              exact ⟨hj, by omega⟩
            · exact absurd hrw (h6 j r w hr)
      | boot v m => simp only [PcOk, hpc] at hpo
      | create m => simp only [PcOk, hpc] at hpo
      | written v =>
        have hgo := hclean p v hp hpc
        subst hgo
        simp only [advance, hpc]
        have hget := fun j => setProc_get s i j { p with pc := .done v } p hp
        rcases h4 with ⟨-, h6⟩ | ⟨h5, k, h6⟩
        · exact absurd hpc (h6 i p v hp)
        · obtain ⟨rfl, rfl⟩ := h6 i p v hp hpc
          refine ⟨h + 1, by simp, by omega, ?_, Or.inl ⟨?_, ?_⟩⟩
          · intro j r hr
            simp only at hr
            rw [hget] at hr
            split_ifs at hr
            · obtain rfl := Option.some.inj hr
              simp only [HintOk]
              exact Nat.le_refl _
            · exact (h3 j r hr).mono (by omega)
          · simpa only [setProc] using h5
          · intro j r w hr hrw
            simp only at hr
            rw [hget] at hr
            split_ifs at hr with hj
            · obtain rfl := Option.some.inj hr
              simp at hrw
            · exact hj (h6 j r w hr hrw).1
      | done v => simp only [advance, hpc]; exact hV
      | failed => simp only [advance, hpc]; exact hV
      | crashed => simp only [advance, hpc]; exact hV

theorem invV_run {T : Ops M C} {files : List (Nat × M)} {n : Nat} {m0 : M} {cs : List C}
    (hsnap : ∀ m c m', T.hasSnap m = true → T.apply m c = some m' → T.hasSnap m' = true)
    (es : List (Nat × Choice)) (s : St M C) (hI : Inv T files n m0 cs s) (hV : InvV n s)
    (hc : Clean T s es) :
    Inv T files n m0 cs (run T s es) ∧ InvV n (run T s es) := by
  induction es generalizing s with
  | nil => exact ⟨hI, hV⟩
  | cons e es ih =>
    obtain ⟨hc1, hc2⟩ := hc
    exact ih _ (inv_step hsnap hI e) (invV_step hI hV e hc1) hc2

/-- **C58**: once a commit has returned, whoever opens the table sees a version in which its change has
been applied — if the hint named the last version at the beginning, the table had a snapshot, and no
writer died or lost its hint between the two writes. Missing: those cases, where it is false. -/
theorem C58_committed_is_visible_partial {T : Ops M C} {files : List (Nat × M)} {n : Nat} {m0 : M}
    (cs : List C)
    (hsnap : ∀ m c m', T.hasSnap m = true → T.apply m c = some m' → T.hasSnap m' = true)
    (h : StartsAt T files n m0) (es : List (Nat × Choice))
    (hc : Clean T (init files (some n) cs) es) (i : Nat) (p : Proc M C) (v : Nat)
    (hp : (run T (init files (some n) cs) es).procs[i]? = some p) (hpc : p.pc = .done v) :
    ∃ w x before after, visible (run T (init files (some n) cs) es) = some w ∧ v ≤ w ∧
      at? (run T (init files (some n) cs) es).files w = some x ∧
      applied T m0 (before ++ [p.change] ++ after) = some x := by
  have hV0 : InvV n (init files (some n) cs) := by
    have hget : ∀ (i : Nat) p, (init files (some n) cs).procs[i]? = some p → p.pc = .start := by
      intro i p hp
      simp only [init, List.getElem?_map, Option.map_eq_some_iff] at hp
      obtain ⟨c, hc, rfl⟩ := hp
      rfl
    refine ⟨n, rfl, Nat.le_refl _, ?_, Or.inl ⟨by simp [init], ?_⟩⟩
    · intro i p hp
      simp only [HintOk, hget i p hp]
    · intro i p v hp
      simp [hget i p hp]
  obtain ⟨hI, hV⟩ := invV_run hsnap es _ (inv_init T cs (some n) h) hV0 hc
  obtain ⟨w, h1, h2, h3, h4⟩ := hV.hint
  have hle : w ≤ n + (run T (init files (some n) cs) es).order.length := by omega
  obtain ⟨x, hx1, hx2⟩ := hI.chain (w - n) (by omega)
  have hw : n + (w - n) = w := by omega
  rw [hw] at hx2
  have hvw := h3 i p hp
  simp only [HintOk, hpc] at hvw
  have hpo := hI.pcs i p hp
  simp only [PcOk, hpc] at hpo
  obtain ⟨j, hj, hvj⟩ := hpo
  have hcs := hI.changes i p hp
  generalize (run T (init files (some n) cs) es).order = order at *
  have hsplit : changesOf cs (order.take (w - n)) =
      changesOf cs (order.take j) ++ [p.change] ++
        changesOf cs ((order.take (w - n)).drop (j + 1)) := by
    have e1 : order.take (w - n) =
        (order.take (w - n)).take (j + 1) ++ (order.take (w - n)).drop (j + 1) :=
      (List.take_append_drop _ _).symm
    have e2 : (order.take (w - n)).take (j + 1) = order.take j ++ [i] := by
      rw [List.take_take, Nat.min_eq_left (by omega), List.take_add_one, hj]
      rfl
    rw [e2] at e1
    have e3 : changesOf cs (order.take (w - n)) =
        changesOf cs (order.take j ++ [i] ++ (order.take (w - n)).drop (j + 1)) := congrArg _ e1
    rw [e3]
    simp [changesOf, hcs]
  refine ⟨w, x, changesOf cs (order.take j),
    changesOf cs ((order.take (w - n)).drop (j + 1)), ?_, hvw, hx2, ?_⟩
  · simp only [visible, h1]
    exact select_hint (by rw [hx2]; rfl)
  · rw [← hsplit]
    exact hx1

/-- A run without deaths is clean. -/
theorem clean_of_go (T : Ops M C) (es : List (Nat × Choice)) (s : St M C)
    (h : ∀ e ∈ es, e.2 = .go) : Clean T s es := by
  induction es generalizing s with
  | nil => trivial
  | cons e es ih => exact ⟨fun _ _ _ _ => h e (by simp), ih _ fun x hx => h x (by simp [hx])⟩

example : Clean exOps (init [(1, [7])] (some 1) [8, 9]) (goOn 0 4 ++ goOn 1 4 ++ goOn 0 2 ++ goOn 1 7) :=
  clean_of_go _ _ _ (by decide)

/-- **C58** does not hold in full: the write of the hint fails, the commit returns, and readers see the
version before. -/
theorem C58_lost_hint_hides_commit :
    let s := run exOps (init [(1, [7])] (some 1) [8]) (goOn 0 5 ++ [(0, .hintFails)])
    s.procs.map (fun p => p.pc) = [.done 2] ∧ visible s = some 1 := ⟨by decide, by decide⟩

/-- **C58** does not hold in full: in a table without a hint file two commits that return one after the
other can leave the hint at the first. -/
theorem C58_missing_hint_hides_commit :
    let s := run exOps (init [(1, [7])] none [8, 9]) (goOn 0 5 ++ goOn 1 6 ++ goOn 0 1)
    s.procs.map (fun p => p.pc) = [.done 2, .done 3] ∧ visible s = some 2 :=
  ⟨by decide, by decide⟩

/-- The state of a table whose hint stays behind: the hinted version and the next one are there, and no
writer is about to write. -/
structure Stuck (T : Ops M C) (h : Nat) (s : St M C) : Prop where
  hint : s.hint = some h
  here : ∃ x, at? s.files h = some x ∧ T.hasSnap x = true
  next : (at? s.files (h + 1)).isSome = true
  pcs : ∀ (i : Nat) p, s.procs[i]? = some p →
    p.pc = .start ∨ p.pc = .hinted (some h) ∨ p.pc = .selected h ∨ (∃ m, p.pc = .loaded h m) ∨
      p.pc = .failed ∨ p.pc = .crashed

theorem stuck_step {T : Ops M C} {h : Nat} {s : St M C} (hS : Stuck T h s) (e : Nat × Choice) :
    Stuck T h (step T s e) ∧ (step T s e).files = s.files := by
  obtain ⟨i, ch⟩ := e
  simp only [step]
  cases hp : s.procs[i]? with
  | none => exact ⟨hS, rfl⟩
  | some p =>
    simp only
    have key : ∀ q : Proc M C, (q.pc = .start ∨ q.pc = .hinted (some h) ∨ q.pc = .selected h ∨
        (∃ m, q.pc = .loaded h m) ∨ q.pc = .failed ∨ q.pc = .crashed) →
        Stuck T h (setProc s i q) ∧ (setProc s i q).files = s.files := by
      intro q hq
      refine ⟨⟨hS.hint, hS.here, hS.next, ?_⟩, rfl⟩
      intro j r hr
      rw [setProc_get s i j q p hp] at hr
      split_ifs at hr
      · obtain rfl := Option.some.inj hr
        exact hq
      · exact hS.pcs j r hr
    split_ifs
    · exact key _ (by simp)
    · obtain ⟨x, hx1, hx2⟩ := hS.here
      rcases hS.pcs i p hp with hpc | hpc | hpc | ⟨m, hpc⟩ | hpc | hpc
      · simp only [advance, hpc]
        exact key _ (by simp [hS.hint])
      · simp only [advance, hpc, select_hint (by rw [hx1]; rfl : (at? s.files h).isSome = true)]
        exact key _ (by simp [afterList])
      · simp only [advance, hpc, hx1, afterLoad]
        cases T.apply x p.change with
        | none => exact key _ (by simp)
        | some m' => exact key _ (by simp [hx2])
      · simp only [advance, hpc, hS.next, if_true]
        refine key _ ?_
        simp only [retry]
        split_ifs <;> simp
      · simp only [advance, hpc]
        exact ⟨hS, trivial⟩
      · simp only [advance, hpc]
        exact ⟨hS, trivial⟩

/-- **C58**: after a lost hint the table is stuck: whatever writers come, none ever returns, the files
stay as they are and readers see the hinted version for ever. -/
theorem C58_lost_hint_blocks_the_table {T : Ops M C} (files : List (Nat × M)) (h : Nat) (x : M)
    (h1 : at? files h = some x) (h2 : T.hasSnap x = true) (h3 : (at? files (h + 1)).isSome = true)
    (cs : List C) (es : List (Nat × Choice)) :
    (run T (init files (some h) cs) es).files = files ∧
    visible (run T (init files (some h) cs) es) = some h ∧
    ∀ (i : Nat) p v, (run T (init files (some h) cs) es).procs[i]? = some p → p.pc ≠ .done v := by
  have h0 : Stuck T h (init files (some h) cs) := by
    refine ⟨rfl, ⟨x, h1, h2⟩, h3, ?_⟩
    intro i p hp
    simp only [init, List.getElem?_map, Option.map_eq_some_iff] at hp
    obtain ⟨c, -, rfl⟩ := hp
    exact Or.inl rfl
  obtain ⟨hS, hf⟩ : Stuck T h (run T (init files (some h) cs) es) ∧
      (run T (init files (some h) cs) es).files = files :=
    run_induct T (P := fun s => Stuck T h s ∧ s.files = files) es _ ⟨h0, rfl⟩ fun s e _ hs =>
      ⟨(stuck_step hs.1 e).1, (stuck_step hs.1 e).2.trans hs.2⟩
  refine ⟨hf, ?_, ?_⟩
  · simp only [visible, hS.hint, hf]
    exact select_hint (by rw [h1]; rfl)
  · intro i p v hp hpc
    rcases hS.pcs i p hp with h | h | h | ⟨m, h⟩ | h | h <;> rw [hpc] at h <;> simp at h

/-- The state after a lost hint meets the hypotheses. -/
example : (at? [(2, [7, 8]), (1, [7])] 1 = some [7]) ∧ exOps.hasSnap [7] = true ∧
    (at? [(2, [7, 8]), (1, [7])] 2).isSome = true := ⟨by decide, by decide, by decide⟩

end Verif.Iceberg.Protocol
