import Verif.Delta.CommitLemmas

/-! # C42: concurrent Delta commits. C43: timestamps inside commits -/

namespace Verif.Delta.Commit

/-! ## Specification -/

namespace Spec

/-- The protocol in force after the first `v + 1` commits. -/
def protocolAt (fs : Files) (v : Nat) : Option Proto :=
  ((fs.take (v + 1)).flatMap fun x => x.2.acts.filterMap fun a => match a with | .protocol p => some p | _ => none).getLast?

/-- The metadata in force after the first `v + 1` commits. -/
def metadataAt (fs : Files) (v : Nat) : Option Meta :=
  ((fs.take (v + 1)).flatMap fun x => x.2.acts.filterMap fun a => match a with | .metadata m => some m | _ => none).getLast?

/-- Timestamps are recorded in commits from version `v` on or earlier: the protocol has the feature, the table
has the setting, and the version that the metadata names as the first one, if any, is at most `v`. -/
def Recorded (fs : Files) (v : Nat) : Prop :=
  ∃ p m, protocolAt fs v = some p ∧ metadataAt fs v = some m ∧ p.ict = true ∧ m.config.ict = true ∧
    ∀ e, m.config.ictFrom = some e → e ≤ v

/-- An action that appends. -/
def Appends (a : Act) : Prop := (∃ k d, a = .add k d) ∨ ∃ x, a = .txn x

end Spec

theorem protocolAt_eq (fs : Files) (v : Nat) : Spec.protocolAt fs v = (protocolsOf (actsUpTo fs v)).getLast? := by
  unfold Spec.protocolAt actsUpTo protocolsOf
  rw [List.filterMap_flatMap]
  rfl

theorem metadataAt_eq (fs : Files) (v : Nat) : Spec.metadataAt fs v = (metadatasOf (actsUpTo fs v)).getLast? := by
  unfold Spec.metadataAt actsUpTo metadatasOf
  rw [List.filterMap_flatMap]
  rfl

theorem blind_spec {acts : List Act} {op : Op} :
    isBlindAppend acts op = true ↔ op.plainWrite = true ∧ ∀ a ∈ acts, Spec.Appends a := by
  unfold isBlindAppend
  rw [Bool.and_eq_true, List.all_eq_true]
  refine and_congr_right fun _ => forall_congr' fun a => forall_congr' fun _ => ?_
  unfold Spec.Appends
  cases a <;> simp

def anyVia : Option Int → Prop := fun _ => True

theorem inv_any (valid : Proto → Meta → List Act → Bool) (es : List Ev) : Inv anyVia (Sys.run valid es) :=
  inv_run es fun _ _ _ _ _ _ => trivial

/-! ## C42: the log -/

/-- Whatever the writers do, the versions in the log are 0, 1, 2, … without gap or repetition. -/
theorem C42_versions_consecutive (valid : Proto → Meta → List Act → Bool) (es : List Ev) :
    (Sys.run valid es).files.map (·.1) = List.range (Sys.run valid es).files.length :=
  (inv_any valid es).tidy

/-- A version once written stays as it is. -/
theorem C42_versions_final (valid : Proto → Meta → List Act → Bool) (es es' : List Ev) (v : Nat) (c : Commit)
    (h : (Sys.run valid es).files.get v = some c) : (Sys.run valid (es ++ es')).files.get v = some c := by
  have h1 := (inv_any valid es).tidy
  have h2 := (inv_any valid (es ++ es')).tidy
  obtain ⟨ext, he⟩ := (later_run (valid := valid) es es').files
  rw [tidy_get h1] at h
  rw [tidy_get h2, he]
  cases hx : (Sys.run valid es).files[v]? with
  | none => rw [hx] at h; cases h
  | some x =>
    rw [List.getElem?_append_left (List.getElem?_eq_some_iff.mp hx).1, hx]
    rw [hx] at h
    exact h

/-- Every version belongs to exactly one writer, which was told so, and a writer that was told that it committed a version
owns it and no other one. A writer that failed owns none. -/
theorem C42_one_writer_per_version (valid : Proto → Meta → List Act → Bool) (es : List Ev) (i : Nat) (w : Writer) (v : Nat)
    (hw : (Sys.run valid es).writers[i]? = some w) :
    w.phase = .done v ↔ ∃ c, (Sys.run valid es).files.get v = some c ∧ c.owner = i := by
  have h := inv_any valid es
  constructor
  · intro hp
    have := (h.writers i w hw).2
    rw [hp] at this
    obtain ⟨c, hc, -, -, ho⟩ := this
    exact ⟨c, hc, ho⟩
  · rintro ⟨c, hc, rfl⟩
    obtain ⟨w', hw', hp⟩ := h.owners v c hc
    rw [hw] at hw'
    cases hw'
    exact hp

/-- No version is without writer. -/
theorem C42_every_version_has_writer (valid : Proto → Meta → List Act → Bool) (es : List Ev) (v : Nat) (c : Commit)
    (h : (Sys.run valid es).files.get v = some c) : ∃ w, (Sys.run valid es).writers[c.owner]? = some w := by
  obtain ⟨w, hw, -⟩ := (inv_any valid es).owners v c h
  exact ⟨w, hw⟩

/-- A request is kept while it is processed, and the answer is final. -/
theorem C42_answers_final (valid : Proto → Meta → List Act → Bool) (es es' : List Ev) (i : Nat) (w : Writer)
    (hw : (Sys.run valid es).writers[i]? = some w) :
    ∃ w', (Sys.run valid (es ++ es')).writers[i]? = some w' ∧ w'.op = w.op ∧ w'.table = w.table ∧ w'.orig = w.orig ∧
      (∀ v, w.phase = .done v → w'.phase = .done v) ∧ (w.phase = .failed → w'.phase = .failed) := by
  obtain ⟨w', hw', ⟨j1, -, j3, j4⟩, hd, hf⟩ := (later_run (valid := valid) es es').writers i w hw
  refine ⟨w', hw', j1, j3, j4, ?_, ?_⟩
  · intro v hv; rw [hd v hv]; exact hv
  · intro hv; rw [hf hv]; exact hv

/-! ## C42: conflicts -/

theorem done_spec {P : Option Int → Prop} {y : Sys} (h : Inv P y) {i : Nat} {w : Writer} {v : Nat}
    (hw : y.writers[i]? = some w) (hp : w.phase = .done v) :
    Core y.files w ∧ ∃ c, y.files.get v = some c ∧ Aim P y.files w v c.ict c.acts := by
  obtain ⟨h1, h2⟩ := h.writers i w hw
  rw [hp] at h2
  obtain ⟨c, hc, ha, -⟩ := h2
  exact ⟨h1, c, hc, ha⟩

/-- A writer that read the table at version `s0.version` and does not only append commits the very next version: nobody
else committed in between. -/
theorem C42_exclusive (valid : Proto → Meta → List Act → Bool) (es : List Ev) (i : Nat) (w : Writer) (v : Nat) (s0 : Snap)
    (hw : (Sys.run valid es).writers[i]? = some w) (hp : w.phase = .done v) (h0 : w.table = some s0)
    (hx : w.op.plainWrite = false ∨ ∃ a ∈ w.orig, ¬ Spec.Appends a) : v = s0.version + 1 := by
  obtain ⟨hc, c, -, prev, now, -, -, ha⟩ := done_spec (inv_any valid es) hw hp
  obtain ⟨-, -, -, s, hs, -, hr, -⟩ := hc.plain s0 h0
  have hb : isBlindAppend w.orig w.op = false := by
    rw [← Bool.not_eq_true, blind_spec]
    rintro ⟨h1, h2⟩
    obtain hx | ⟨a, ha, hx⟩ := hx
    · rw [h1] at hx; cases hx
    · exact hx (h2 a ha)
  have : s = s0 := hr (by unfold Writer.retries Writer.creator; simp [h0, hb])
  subst this
  obtain ⟨h1, -⟩ | ⟨s', via, h1, h2, -⟩ := ha
  · rw [hs] at h1; cases h1
  · rw [hs] at h1; cases h1; exact h2

/-- A writer that read the table at version `s0.version` and appends commits only if the versions in between contain
neither protocol nor metadata and record no application transaction that it records itself. So protocol and metadata in front of its
commit are those that it read. -/
theorem C42_append (valid : Proto → Meta → List Act → Bool) (es : List Ev) (i : Nat) (w : Writer) (v : Nat) (s0 : Snap)
    (hw : (Sys.run valid es).writers[i]? = some w) (hp : w.phase = .done v) (h0 : w.table = some s0)
    (hx : ∀ a ∈ w.orig, Spec.Appends a) :
    s0.version < v ∧
    (∀ u, s0.version < u → u < v → ∃ c, (Sys.run valid es).files.get u = some c ∧
      (∀ p, Act.protocol p ∉ c.acts) ∧ (∀ m, Act.metadata m ∉ c.acts) ∧
      ∀ x, Act.txn x ∈ w.orig → Act.txn x ∉ c.acts) ∧
    Spec.protocolAt (Sys.run valid es).files (v - 1) = some s0.protocol ∧
    Spec.metadataAt (Sys.run valid es).files (v - 1) = some s0.metadata := by
  have hinv := inv_any valid es
  obtain ⟨hc, c, -, prev, now, -, -, ha⟩ := done_spec hinv hw hp
  obtain ⟨hsn, -, -, s, hs, hle, -, hall⟩ := hc.plain s0 h0
  have hv : v = s.version + 1 := by
    obtain ⟨h1, -⟩ | ⟨s', via, h1, h2, -⟩ := ha
    · rw [hs] at h1; cases h1
    · rw [hs] at h1; cases h1; exact h2
  subst hv
  have np : protocolsOf w.orig = [] := by
    unfold protocolsOf
    rw [List.filterMap_eq_nil_iff]
    intro a ha
    obtain ⟨k, d, rfl⟩ | ⟨x, rfl⟩ := hx a ha <;> rfl
  have nm : metadatasOf w.orig = [] := by
    unfold metadatasOf
    rw [List.filterMap_eq_nil_iff]
    intro a ha
    obtain ⟨k, d, rfl⟩ | ⟨x, rfl⟩ := hx a ha <;> rfl
  have hq : ∀ u, s0.version < u → u ≤ s.version → ∃ c, (Sys.run valid es).files.get u = some c ∧
      protocolsOf c.acts = [] ∧ metadatasOf c.acts = [] := by
    intro u h1 h2
    obtain ⟨c, s', hc, hn⟩ := hall u h1 h2
    obtain ⟨n1, n2, -⟩ := noConflict_plain hn
    exact ⟨c, hc, n1 np, n2 nm⟩
  refine ⟨by omega, ?_, ?_, ?_⟩
  · intro u h1 h2
    obtain ⟨c, s', hc, hn⟩ := hall u h1 (by omega)
    obtain ⟨n1, n2, n3, -⟩ := noConflict_plain hn
    have n1 := n1 np
    have n2 := n2 nm
    refine ⟨c, hc, ?_, ?_, ?_⟩
    · intro p hp
      unfold protocolsOf at n1
      rw [List.filterMap_eq_nil_iff] at n1
      cases n1 _ hp
    · intro p hp
      unfold metadatasOf at n2
      rw [List.filterMap_eq_nil_iff] at n2
      cases n2 _ hp
    · intro x hx hx'
      exact n3 x (List.mem_filterMap.mpr ⟨_, hx, rfl⟩) (List.mem_filterMap.mpr ⟨_, hx', rfl⟩)
  · rw [protocolAt_eq, Nat.add_sub_cancel]
    obtain ⟨-, -, p1, -⟩ := snap_spec hinv.tidy hsn
    obtain ⟨n, hn⟩ := Nat.exists_eq_add_of_le hle
    obtain ⟨e1, -⟩ := quiet hinv.tidy (v := s0.version) n (by rw [← hn]; exact hq)
    rw [hn, e1, p1]
  · rw [metadataAt_eq, Nat.add_sub_cancel]
    obtain ⟨-, -, -, p1, -⟩ := snap_spec hinv.tidy hsn
    obtain ⟨n, hn⟩ := Nat.exists_eq_add_of_le hle
    obtain ⟨-, e1⟩ := quiet hinv.tidy (v := s0.version) n (by rw [← hn]; exact hq)
    rw [hn, e1, p1]

/-- What a writer read is what the log says about the version that it read. -/
theorem C42_read_is_log (valid : Proto → Meta → List Act → Bool) (es : List Ev) (i : Nat) (w : Writer) (s0 : Snap)
    (hw : (Sys.run valid es).writers[i]? = some w) (h0 : w.table = some s0) :
    Spec.protocolAt (Sys.run valid es).files s0.version = some s0.protocol ∧
    Spec.metadataAt (Sys.run valid es).files s0.version = some s0.metadata := by
  have hinv := inv_any valid es
  obtain ⟨hc, -⟩ := hinv.writers i w hw
  obtain ⟨hsn, -⟩ := hc.plain s0 h0
  obtain ⟨-, -, p1, p2, -⟩ := snap_spec hinv.tidy hsn
  rw [protocolAt_eq, metadataAt_eq]
  exact ⟨p1, p2⟩

/-- A writer that found no table and wanted to create one, but committed a later version than 0, wrote neither protocol nor
metadata, and the table in front of its commit has the protocol, schema, partitioning and configuration that it wanted. -/
theorem C42_create (valid : Proto → Meta → List Act → Bool) (es : List Ev) (i : Nat) (w : Writer) (v : Nat)
    (hw : (Sys.run valid es).writers[i]? = some w) (hp : w.phase = .done (v + 1)) (h0 : w.table = none) :
    ∃ c p m, (Sys.run valid es).files.get (v + 1) = some c ∧ c.acts = w.orig.filter (fun a => !isInit a) ∧
      Spec.protocolAt (Sys.run valid es).files v = some p ∧ Spec.metadataAt (Sys.run valid es).files v = some m ∧
      (∀ q, w.orig.find? (fun a => match a with | .protocol _ => true | _ => false) = some (.protocol q) → q = p) ∧
      ∀ n, w.orig.find? (fun a => match a with | .metadata _ => true | _ => false) = some (.metadata n) →
        n.schema = m.schema ∧ n.partitioning = m.partitioning ∧ n.config = m.config := by
  have hinv := inv_any valid es
  obtain ⟨hc, c, hg, prev, now, hfin, -, ha⟩ := done_spec hinv hw hp
  obtain ⟨-, h1, -⟩ | ⟨s, via, hs, hv, -⟩ := ha
  · cases h1
  have hv : s.version = v := by omega
  obtain ⟨hcomp, hacts⟩ := hc.adopted h0 s hs
  have hsn := hc.snap s hs
  obtain ⟨-, -, p1, p2, -⟩ := snap_spec hinv.tidy hsn
  rw [hv] at p1 p2
  have hff : ∀ (α : Type) (f : Act → Option α) (l : List Act) (a : Act) (x : α),
      l.find? (fun a => (f a).isSome) = some a → f a = some x → (l.filterMap f).head? = some x := by
    intro α f l a x
    induction l with
    | nil => intro h; simp at h
    | cons b l ih =>
      intro h hx
      rw [List.find?_cons] at h
      cases hb : f b with
      | none => rw [List.filterMap_cons, hb]; simp [hb] at h; exact ih (by simpa using h) hx
      | some z =>
        simp [hb] at h
        subst h
        rw [hb] at hx
        cases hx
        simp [hb]
  refine ⟨c, s.protocol, s.metadata, hg, ?_, by rw [protocolAt_eq]; exact p1, by rw [metadataAt_eq]; exact p2, ?_, ?_⟩
  · obtain ⟨i1, i2⟩ := init_nil w.orig
    have : ∀ l : List Act, metadatasOf l = [] → ∀ u, setIctFrom u l = l := by
      intro l
      induction l with
      | nil => intro _ _; rfl
      | cons a l ih =>
        intro h u
        rw [show a :: l = [a] ++ l from rfl, metadatasOf_append, List.append_eq_nil_iff] at h
        cases a
        case metadata m => simp [metadatasOf] at h
        all_goals
          unfold setIctFrom
          rw [ih h.2]
    rw [← hacts]
    unfold finalize at hfin
    rw [Prod.mk.injEq] at hfin
    rw [← hfin.2]
    split_ifs
    · exact this _ (by rw [hacts]; exact i2) _
    · rfl
  · intro q hq
    have : (protocolsOf w.orig).head? = some q := by
      refine hff Proto _ w.orig (.protocol q) q ?_ rfl
      rw [← hq]
      congr 1
      funext a
      cases a <;> rfl
    unfold Writer.compatible at hcomp
    simp only [this, Bool.and_eq_true, decide_eq_true_eq] at hcomp
    exact hcomp.1
  · intro q hq
    have : (metadatasOf w.orig).head? = some q := by
      refine hff Meta _ w.orig (.metadata q) q ?_ rfl
      rw [← hq]
      congr 1
      funext a
      cases a <;> rfl
    unfold Writer.compatible at hcomp
    simp only [this, Bool.and_eq_true, decide_eq_true_eq] at hcomp
    exact ⟨hcomp.2.1.1, hcomp.2.1.2, hcomp.2.2⟩

/-- A writer with a table writes its actions; only the version from which on timestamps are recorded is filled in. -/
theorem C42_actions_written (valid : Proto → Meta → List Act → Bool) (es : List Ev) (i : Nat) (w : Writer) (v : Nat)
    (s0 : Snap) (hw : (Sys.run valid es).writers[i]? = some w) (hp : w.phase = .done v) (h0 : w.table = some s0) :
    ∃ c, (Sys.run valid es).files.get v = some c ∧ c.acts.filter (fun a => !isInit a) = w.orig.filter (fun a => !isInit a) ∧
      protocolsOf c.acts = protocolsOf w.orig ∧
      (metadatasOf c.acts).map (fun m => { m with config := { m.config with ictFrom := none } }) =
        (metadatasOf w.orig).map (fun m => { m with config := { m.config with ictFrom := none } }) := by
  obtain ⟨hc, c, hg, prev, now, hfin, -, -⟩ := done_spec (inv_any valid es) hw hp
  obtain ⟨-, hacts, -⟩ := hc.plain s0 h0
  refine ⟨c, hg, ?_⟩
  unfold finalize at hfin
  rw [Prod.mk.injEq] at hfin
  rw [← hfin.2, hacts]
  split_ifs
  · exact ⟨setIctFrom_other _ _, setIctFrom_protocols _ _, setIctFrom_metadatas _ _⟩
  · exact ⟨rfl, rfl, rfl⟩

/-! ## C43 -/

/-- No snapshot takes the time of its version from a compacted log file. -/
def noVia : Option Int → Prop := fun via => via = none

theorem lastMeta_ict {v : Nat} (l : List Act) :
    ((metadatasOf (setIctFrom v l)).getLast?).map (·.config.ict) = ((metadatasOf l).getLast?).map (·.config.ict) := by
  have h := congrArg (fun x => (x.getLast?).map (fun m : Meta => m.config.ict)) (setIctFrom_metadatas v l)
  simpa [List.getLast?_map, Function.comp_def] using h

/-- The protocol and metadata in force after a commit. -/
theorem effective_at {fs : Files} (ht : Tidy fs) {b : Bool} {v : Nat} {s : Snap} (hs : fs.snap b v = some s) {c : Commit}
    (hc : fs.get (v + 1) = some c) :
    Spec.protocolAt fs (v + 1) = (protocolsOf c.acts).getLast?.or (some s.protocol) ∧
    Spec.metadataAt fs (v + 1) = (metadatasOf c.acts).getLast?.or (some s.metadata) := by
  obtain ⟨-, -, p1, p2, -⟩ := snap_spec ht hs
  rw [tidy_get ht] at hc
  cases hx : fs[v + 1]? with
  | none => rw [hx] at hc; cases hc
  | some x =>
    rw [hx] at hc
    cases hc
    rw [protocolAt_eq, metadataAt_eq, actsUpTo_succ hx, protocolsOf_append, metadatasOf_append, List.getLast?_append,
      List.getLast?_append, p1, p2]
    exact ⟨rfl, rfl⟩

/-- If timestamps are enabled after version `v + 1` then that version records one, and it is larger than the time of
version `v`: the recorded one if version `v` is one that records, else the modification time of its file. -/
theorem C43_next_is_later_partial (valid : Proto → Meta → List Act → Bool) (es : List Ev) (hes : ∀ i now via, Ev.look i now via ∈ es → via = none)
    (v : Nat) (c c' : Commit) (hc : (Sys.run valid es).files.get v = some c)
    (hc' : (Sys.run valid es).files.get (v + 1) = some c')
    (p : Proto) (m : Meta) (hp : Spec.protocolAt (Sys.run valid es).files (v + 1) = some p)
    (hm : Spec.metadataAt (Sys.run valid es).files (v + 1) = some m) (h1 : p.ict = true) (h2 : m.config.ict = true) :
    ∃ t t', c'.ict = some t' ∧ (t < 9223372036854775807 → t < t') ∧
      (Spec.Recorded (Sys.run valid es).files v → c.ict = some t) ∧
      (¬ Spec.Recorded (Sys.run valid es).files v → c.mtime = t) := by
  have hinv : Inv noVia (Sys.run valid es) := by
    refine inv_run es ?_
    rintro e he i now via rfl
    exact hes i now via he
  obtain ⟨w, hw, hph⟩ := hinv.owners (v + 1) c' hc'
  obtain ⟨hcore, c'', hg, prev, now, hfin, -, ha⟩ := done_spec hinv hw hph
  rw [hc'] at hg
  cases hg
  obtain ⟨-, h3, -⟩ | ⟨s, via, hs, hv, hvia, hsome, hprev⟩ := ha
  · cases h3
  cases hvia
  have hv : s.version = v := by omega
  have hsn := hcore.snap s hs
  rw [hv] at hsn
  obtain ⟨e1, e2⟩ := effective_at hinv.tidy hsn hc'
  obtain ⟨-, -, p1, p2, -⟩ := snap_spec hinv.tidy hsn
  rw [hp] at e1
  rw [hm] at e2
  -- the timestamp is enabled
  have hnew : (match effective w.snap w.acts with
      | some (p, m) => ictEnabled p m
      | none => false) = true := by
    unfold finalize at hfin
    rw [Prod.mk.injEq] at hfin
    have ep : (protocolsOf c'.acts).getLast? = (protocolsOf w.acts).getLast? := by
      rw [← hfin.2]
      split_ifs
      · rw [setIctFrom_protocols]
      · rfl
    have em : ((metadatasOf c'.acts).getLast?).map (·.config.ict) = ((metadatasOf w.acts).getLast?).map (·.config.ict) := by
      rw [← hfin.2]
      split_ifs
      · rw [lastMeta_ict]
      · rfl
    unfold effective
    rw [hs, ← ep]
    simp only [Option.map_some]
    rw [← e1]
    cases hl : (metadatasOf w.acts).getLast? with
    | none =>
      rw [hl] at em
      simp only [Option.map_none, Option.map_eq_none_iff] at em
      rw [em] at e2
      simp only [Option.none_or, Option.some.injEq] at e2 ⊢
      subst e2
      simp [ictEnabled, h1, h2]
    | some m' =>
      rw [hl] at em
      obtain ⟨m'', q1, q2⟩ := Option.map_eq_some_iff.mp em
      rw [q1] at e2
      simp only [Option.some_or, Option.some.injEq] at e2 ⊢
      subst e2
      simp [ictEnabled, h1, ← q2, h2]
  -- the time of the previous version
  obtain ⟨t, ht⟩ := Option.isSome_iff_exists.mp hsome
  refine ⟨t, max now (satSucc t), ?_, ?_, ?_⟩
  · unfold finalize at hfin
    rw [Prod.mk.injEq] at hfin
    rw [← hfin.1]
    exact (if_pos hnew).trans (by rw [ht]; rfl)
  · intro hlt
    unfold satSucc maxI64
    rw [if_pos hlt]
    omega
  · rw [ht] at hprev
    unfold previousTimestamp at hprev
    dsimp only at hprev
    rw [hv, hc] at hprev
    dsimp only at hprev
    have hrec : Spec.Recorded (Sys.run valid es).files v ↔ usesIct v s.protocol s.metadata = true := by
      unfold Spec.Recorded usesIct ictEnabled
      rw [protocolAt_eq, metadataAt_eq, p1, p2]
      constructor
      · rintro ⟨p, m, a1, a2, a3, a4, a5⟩
        cases a1
        cases a2
        rw [a3, a4]
        cases hf : s.metadata.config.ictFrom with
        | none => rfl
        | some e => simpa using a5 e hf
      · intro a
        refine ⟨s.protocol, s.metadata, rfl, rfl, ?_⟩
        cases hpi : s.protocol.ict <;> cases hmi : s.metadata.config.ict <;> simp [hpi, hmi] at a ⊢
        intro e hf
        rw [hf] at a
        simpa using a
    rw [hrec]
    split_ifs at hprev with hu
    · exact ⟨fun _ => hprev.symm, fun h => absurd hu h⟩
    · exact ⟨fun h => absurd h hu, fun _ => (Option.some.inj hprev).symm⟩

/-- Where versions record timestamps, later versions have larger ones. -/
theorem C43_recorded_times_increase_partial (valid : Proto → Meta → List Act → Bool) (es : List Ev)
    (hes : ∀ i now via, Ev.look i now via ∈ es → via = none) (i : Nat) (n : Nat) (c : Commit)
    (hc : (Sys.run valid es).files.get i = some c) (t : Int) (ht : c.ict = some t) (c' : Commit)
    (hc' : (Sys.run valid es).files.get (i + n + 1) = some c')
    (hrec : ∀ u, i ≤ u → u ≤ i + n + 1 → Spec.Recorded (Sys.run valid es).files u)
    (hmax : ∀ u d, (Sys.run valid es).files.get u = some d → ∀ x, d.ict = some x → x < 9223372036854775807) :
    ∃ t', c'.ict = some t' ∧ t < t' := by
  have hstep : ∀ u d d', (Sys.run valid es).files.get u = some d → (Sys.run valid es).files.get (u + 1) = some d' →
      Spec.Recorded (Sys.run valid es).files u → Spec.Recorded (Sys.run valid es).files (u + 1) →
      ∃ x x', d.ict = some x ∧ d'.ict = some x' ∧ x < x' := by
    intro u d d' hd hd' hr hr'
    obtain ⟨p, m, q1, q2, q3, q4, -⟩ := hr'
    obtain ⟨x, x', r1, r2, r3, -⟩ := C43_next_is_later_partial valid es hes u d d' hd hd' p m q1 q2 q3 q4
    have hx := r3 hr
    exact ⟨x, x', hx, r1, r2 (hmax u d hd x hx)⟩
  induction n generalizing c' with
  | zero =>
    obtain ⟨x, x', r1, r2, r3⟩ := hstep i c c' hc hc' (hrec i (by omega) (by omega)) (hrec (i + 1) (by omega) (by omega))
    rw [ht] at r1
    cases r1
    exact ⟨x', r2, r3⟩
  | succ n ih =>
    have htidy := (inv_any valid es).tidy
    obtain ⟨d, hd⟩ : ∃ d, (Sys.run valid es).files.get (i + n + 1) = some d := by
      rw [tidy_get htidy] at hc' ⊢
      cases hx : (Sys.run valid es).files[i + (n + 1) + 1]? with
      | none => rw [hx] at hc'; cases hc'
      | some x =>
        have hlt : i + (n + 1) + 1 < (Sys.run valid es).files.length := (List.getElem?_eq_some_iff.mp hx).1
        rw [List.getElem?_eq_getElem (by omega)]
        exact ⟨_, rfl⟩
    obtain ⟨x, hx, hlt⟩ := ih d hd fun u h1 h2 => hrec u h1 (by omega)
    obtain ⟨y, y', r1, r2, r3⟩ := hstep (i + n + 1) d c' hd hc' (hrec _ (by omega) (by omega)) (hrec _ (by omega) (by omega))
    rw [hx] at r1
    cases r1
    exact ⟨y', r2, by omega⟩


/-! ## Examples and counterexamples -/

namespace Ex

def write : Op := ⟨true, false, true⟩
def delete : Op := ⟨false, false, true⟩
def all : Proto → Meta → List Act → Bool := fun _ _ _ => true
def p : Proto := ⟨1, 7, true, 0⟩
def m : Meta := ⟨5, 6, ⟨true, none, .serializable, 0⟩, 7⟩
def f (n : Nat) : Act := .add ⟨n, none⟩ true
def r (n : Nat) : Act := .remove ⟨n, none⟩ true

/-- Writer 0 creates the table; writers 1 (append) and 2 (delete) read version 0; writer 1 commits first. Writer 3 appends and
read version 0, so it has to try again. The clock of the last writer is behind. -/
def run : List Ev :=
  [.start write 15 none true [.protocol p, .metadata m, f 1], .look 0 100 none, .put 0 1000,
   .start write 15 (some 0) false [f 2, .txn 8], .start delete 15 (some 0) true [r 1], .start write 15 (some 0) false [f 3],
   .look 1 200 none, .look 2 201 none, .look 3 202 none, .put 1 1001, .put 2 1002, .put 3 1002, .look 2 300 none,
   .look 3 50 none, .put 3 1003]

end Ex

open Ex in
example : (Sys.run all run).files.map (fun x => (x.1, x.2.owner, x.2.ict)) = [(0, 0, some 100), (1, 1, some 200), (2, 3, some 201)] := by decide

open Ex in
example : (Sys.run all run).writers.map (·.phase) = [.done 0, .done 1, .failed, .done 2] := by decide

/-- The hypotheses of `C42_versions_final`, `C42_every_version_has_writer`. -/
example : (Sys.run Ex.all Ex.run).files.get 1 = some ⟨true, some 200, [Ex.f 2, .txn 8], 1001, 1⟩ := by decide

/-- Of `C42_append`, `C42_read_is_log`, `C42_actions_written`: writer 3 read version 0 and committed version 2. -/
example : ∃ w s, (Sys.run Ex.all Ex.run).writers[3]? = some w ∧ w.phase = .done 2 ∧ w.table = some s ∧ s.version = 0 ∧
    w.orig = [Ex.f 3] := by
  refine ⟨_, _, rfl, ?_, rfl, ?_, ?_⟩ <;> decide

/-- Of `C42_exclusive`. -/
example : ∃ w s, (Sys.run Ex.all (Ex.run ++ [.start Ex.delete 15 (some 2) true [Ex.r 1], .look 4 400 none, .put 4 1])).writers[4]? =
    some w ∧ w.phase = .done 3 ∧ w.table = some s ∧ w.op.plainWrite = false := by
  refine ⟨_, _, rfl, ?_, rfl, ?_⟩ <;> decide

/-- Of `C43_recorded_times_increase_partial`, with `i = 0` and `n = 1`. -/
example : (∀ i now via, Ev.look i now via ∈ Ex.run → via = none) ∧
    ((Sys.run Ex.all Ex.run).files.get 0).map (·.ict) = some (some 100) ∧
    ((Sys.run Ex.all Ex.run).files.get 2).map (·.ict) = some (some 201) ∧
    (∀ u, u ≤ 2 → Spec.Recorded (Sys.run Ex.all Ex.run).files u) := by
  refine ⟨?_, by decide, by decide, ?_⟩
  · intro i now via h
    simp [Ex.run] at h
    grind
  · intro u hu
    refine ⟨Ex.p, Ex.m, ?_, ?_, rfl, rfl, by simp [Ex.m]⟩
    · have : u = 0 ∨ u = 1 ∨ u = 2 := by omega
      obtain rfl | rfl | rfl := this <;> decide
    · have : u = 0 ∨ u = 1 ∨ u = 2 := by omega
      obtain rfl | rfl | rfl := this <;> decide

/-- **Disagreement.** A writer that overwrites a table that it found empty has nothing to remove, so its commit looks like an
append and is retried as one. Two such overwrites both succeed and the table holds the rows of both. -/
theorem C42_overwrites_of_empty_table_add_up :
    ∃ es : List Ev, ∃ w1 w2 s, (Sys.run Ex.all es).writers[1]? = some w1 ∧ (Sys.run Ex.all es).writers[2]? = some w2 ∧
      w1.phase = .done 1 ∧ w2.phase = .done 2 ∧ (∃ s1 s2, w1.table = some s1 ∧ w2.table = some s2 ∧ s1.adds = [] ∧ s2.adds = []) ∧
      (Sys.run Ex.all es).files.snap true 2 = some s ∧ s.adds = [⟨2, none⟩, ⟨1, none⟩] :=
  ⟨[.start Ex.write 15 none true [.protocol Ex.p, .metadata Ex.m], .look 0 100 none, .put 0 1000,
     .start Ex.write 15 (some 0) true [Ex.f 1], .start Ex.write 15 (some 0) true [Ex.f 2],
     .look 1 200 none, .look 2 201 none, .put 1 1001, .put 2 1002, .look 2 300 none, .put 2 1003],
   _, _, _, rfl, rfl, by decide, by decide, ⟨_, _, rfl, rfl, by decide, by decide⟩, rfl, by decide⟩

/-- **Disagreement.** Two writers create the same table with data, for example with CREATE TABLE AS SELECT. Both succeed, and
the rows of the second are appended to those of the first. -/
theorem C42_second_creation_appends :
    ∃ es : List Ev, ∃ w1 w2 s, (Sys.run Ex.all es).writers[0]? = some w1 ∧ (Sys.run Ex.all es).writers[1]? = some w2 ∧
      w1.table = none ∧ w2.table = none ∧ w1.phase = .done 0 ∧ w2.phase = .done 1 ∧
      (Sys.run Ex.all es).files.snap true 1 = some s ∧ s.adds = [⟨2, none⟩, ⟨1, none⟩] :=
  ⟨[.start Ex.write 15 none true [.protocol Ex.p, .metadata Ex.m, Ex.f 1],
     .start Ex.write 15 none true [.protocol Ex.p, .metadata Ex.m, Ex.f 2],
     .look 0 200 none, .look 1 201 none, .put 0 1001, .put 1 1002, .look 1 300 none, .put 1 1003],
   _, _, _, rfl, rfl, by decide, by decide, by decide, by decide, rfl, by decide⟩

/-- Of `C42_create`. -/
example : ∃ w, (Sys.run Ex.all [.start Ex.write 15 none true [.protocol Ex.p, .metadata Ex.m, Ex.f 1],
     .start Ex.write 15 none true [.protocol Ex.p, .metadata Ex.m, Ex.f 2],
     .look 0 200 none, .look 1 201 none, .put 0 1001, .put 1 1002, .look 1 300 none, .put 1 1003]).writers[1]? = some w ∧
     w.phase = .done 1 ∧ w.table = none ∧ (w.orig.filter fun a => !isInit a) = [Ex.f 2] := by
  refine ⟨_, rfl, ?_, ?_, ?_⟩ <;> decide

/-- **Disagreement.** An append that read version 0 and one that removed all files of version 0 both succeed if the append comes
last; here the rows appended were computed from the rows removed. -/
theorem C42_append_does_not_notice_delete :
    ∃ es : List Ev, ∃ w1 w2 s1, (Sys.run Ex.all es).writers[1]? = some w1 ∧ (Sys.run Ex.all es).writers[2]? = some w2 ∧
      w1.phase = .done 1 ∧ w1.orig = [Ex.r 1] ∧ w2.phase = .done 2 ∧ w2.table = some s1 ∧ s1.version = 0 :=
  ⟨[.start Ex.write 15 none true [.protocol Ex.p, .metadata Ex.m, Ex.f 1], .look 0 100 none, .put 0 1000,
     .start Ex.delete 15 (some 0) true [Ex.r 1], .start Ex.write 15 (some 0) false [Ex.f 2],
     .look 1 200 none, .put 1 1001, .look 2 300 none, .put 2 1003],
   _, _, _, rfl, rfl, by decide, by decide, by decide, rfl, by decide⟩

/-- **Disagreement.** If the snapshot was read from a compacted log file, then the time of its version is taken to be the
modification time of that file. The store's clock was behind here, so version 2 has a smaller timestamp than version 1. -/
theorem C43_compacted_log_time :
    ∃ es : List Ev, ((Sys.run Ex.all es).files.map fun x => x.2.ict) = [some 100, some 200, some 150] ∧
      ∀ u, u ≤ 2 → Spec.Recorded (Sys.run Ex.all es).files u := by
  refine ⟨[.start Ex.write 15 none true [.protocol Ex.p, .metadata Ex.m, Ex.f 1], .look 0 100 none, .put 0 90,
     .start Ex.write 15 (some 0) false [Ex.f 2], .look 1 200 none, .put 1 95,
     .start Ex.write 15 (some 1) false [Ex.f 3], .look 2 150 (some 96), .put 2 97], by decide, ?_⟩
  intro u hu
  refine ⟨Ex.p, Ex.m, ?_, ?_, rfl, rfl, by simp [Ex.m]⟩
  · have : u = 0 ∨ u = 1 ∨ u = 2 := by omega
    obtain rfl | rfl | rfl := this <;> decide
  · have : u = 0 ∨ u = 1 ∨ u = 2 := by omega
    obtain rfl | rfl | rfl := this <;> decide

end Verif.Delta.Commit
