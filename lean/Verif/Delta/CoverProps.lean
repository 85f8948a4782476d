import Verif.Delta.CoverLemmas

/-! # Properties of the Delta log: C39 (reading retained versions) and C40 (clean-up) -/

namespace Verif.Delta.Log

open Spec

/-- The history says which protocol and metadata version `v` has. -/
def Spec.Described (y : Sys) (v : Nat) : Prop :=
  (∃ p, .protocol p ∈ ((y.history.take (v + 1)).map (·.2)).flatten) ∧
  ∃ m, .metadata m ∈ ((y.history.take (v + 1)).map (·.2)).flatten

theorem described_acts {y : Sys} {v : Nat} (h : Described y v) :
    (∃ p, .protocol p ∈ acts (y.history.take (v + 1))) ∧ ∃ m, .metadata m ∈ acts (y.history.take (v + 1)) := by
  rw [acts, List.flatMap_def]; exact h

/-- **C39.** A version whose files are all still in the log can be loaded, if the last-checkpoint hint is
not newer than it. Missing for the full property: versions older than the hint, for which it is false
(`C39_time_travel_below_hint_fails`). -/
theorem C39_covered_versions_load_partial (es : List Ev) (hes : NoCompact es) (v : Nat)
    (hc : Covered (Sys.run es Sys.init).store v)
    (hh : ∀ h, (Sys.run es Sys.init).store.hint = some h → h.version ≤ v)
    (hd : Described (Sys.run es Sys.init) v) :
    ∃ t, (Sys.run es Sys.init).store.load v = some t ∧
      Contents t ((((Sys.run es Sys.init).history.take (v + 1)).map (·.2)).flatten) := by
  obtain ⟨hp, hm⟩ := described_acts hd
  obtain ⟨t, ht⟩ := load_ok (inv_run es) (cov_run es) (comps_run hes) hh hc hp hm
  exact ⟨t, ht, (C37_load_equals_history es hes v t ht).2⟩

/-- The version found by reading without a version is that of the newest commit, whether or not
there are compactions. -/
theorem latest_spec {y : Sys} (hi : Inv y) (hv : Cov y) (hcomps : ∀ c ∈ y.store.comps, c.stop < y.history.length)
    {n : Nat} (hn : y.history.length = n + 1) : y.store.latest = some n := by
  unfold Store.latest
  rw [List.max?_eq_some_iff]
  constructor
  · obtain ⟨⟨c, hc, hcn⟩, -⟩ := hv.newest n hn
    simp only [List.mem_append, List.mem_map, List.mem_filter]
    refine .inl (.inl ⟨c, ⟨hc, ?_⟩, hcn⟩)
    cases hh : y.store.hint with
    | none => simp
    | some h => have := hv.hintLe h hh; simp; omega
  · intro b hb
    simp only [List.mem_append, List.mem_map, List.mem_filter] at hb
    obtain (⟨c, ⟨hc, -⟩, rfl⟩ | ⟨c, ⟨hc, -⟩, rfl⟩) | ⟨c, ⟨hc, -⟩, rfl⟩ := hb
    · have := (List.getElem?_eq_some_iff.mp (hi.commits c hc)).1; omega
    · have := (hi.ckpts c hc).1; omega
    · have := hcomps c hc; omega

/-- **C39.** Reading without a version finds the newest commit, and it can always be loaded, whatever
was checkpointed and cleaned up. -/
theorem C39_newest_version_loads (es : List Ev) (hes : NoCompact es) (n : Nat)
    (hn : (Sys.run es Sys.init).history.length = n + 1) (hd : Described (Sys.run es Sys.init) n) :
    (Sys.run es Sys.init).store.latest = some n ∧
    ∃ t, (Sys.run es Sys.init).store.load n = some t ∧
      Contents t ((((Sys.run es Sys.init).history).map (·.2)).flatten) := by
  have hi := inv_run es
  have hv := cov_run es
  refine ⟨latest_spec hi hv (by rw [comps_run hes]; intro c hc; cases hc) hn, ?_⟩
  have := C39_covered_versions_load_partial es hes n (hv.newest n hn).2
    (fun h hh => by have := hv.hintLe h hh; omega) hd
  rwa [List.take_of_length_le (by omega)] at this

/-! A log with two checkpoints; versions 2 and later can be read. -/

def exLong : List Ev :=
  [.commit 10 exCreate, .commit 20 exReplace, .checkpoint 1 100 none true, .commit 30 exAppend,
    .commit 40 [.other], .checkpoint 3 100 (some 9) true, .commit 50 [.other]]

example : NoCompact exLong := by intro a b t; simp [exLong]
example : (Sys.run exLong Sys.init).history.length = 4 + 1 := by decide
example : Described (Sys.run exLong Sys.init) 4 := ⟨⟨1, by decide⟩, ⟨⟨7, 1000, 2000⟩, by decide⟩⟩
example : ((Sys.run exLong Sys.init).store.load 4).isSome = true := by decide
example : ((Sys.run exLong Sys.init).store.load 2).isSome = true := by decide

/-- Six commits with a hinted checkpoint of version `cp`. -/
def exHinted (cp : Nat) : List Ev :=
  .commit 0 exCreate :: (List.replicate 5 (.commit 1 [.other])) ++ [.checkpoint cp 100 none true]

/-- **C39, disagreement.** Nothing was ever deleted from this log of six versions with a checkpoint of
version 5; still version 3 cannot be loaded, because listing begins just before it. -/
theorem C39_time_travel_below_hint_fails :
    Covered (Sys.run (exHinted 5) Sys.init).store 3 ∧ Described (Sys.run (exHinted 5) Sys.init) 3 ∧
    NoCompact (exHinted 5) ∧ (Sys.run (exHinted 5) Sys.init).store.load 3 = none := by
  refine ⟨.inl ?_, ⟨⟨1, by decide⟩, ⟨⟨7, 1000, 2000⟩, by decide⟩⟩, ?_, by decide⟩
  · have : ∀ w, w < 4 → ∃ c ∈ (Sys.run (exHinted 5) Sys.init).store.commits, c.version = w := by decide
    exact fun w hw => this w (by omega)
  · intro a b t; simp [exHinted]

/-! ## Clean-up -/

/-- Commit times increase with the version. -/
def Spec.Monotone (h : List (Int × List Action)) : Prop :=
  ∀ (i j : Nat) (a b : Int × List Action), i ≤ j → h[i]? = some a → h[j]? = some b → a.1 ≤ b.1

/-- **C40.** A version that is covered and whose commit is younger than the cut-off stays covered. -/
theorem C40_retained_versions_stay_covered (es : List Ev) (latest : Nat) (cutoff : Int)
    (hmono : Monotone (Sys.run es Sys.init).history) (v : Nat) (a : Int × List Action)
    (hv : (Sys.run es Sys.init).history[v]? = some a) (hnew : cutoff < a.1)
    (hc : Covered (Sys.run es Sys.init).store v) :
    Covered ((Sys.run es Sys.init).step (.cleanup latest cutoff)).store v := by
  simp only [Sys.step]
  cases h : (Sys.run es Sys.init).store.cleanup latest cutoff with
  | none => exact hc
  | some st =>
    rw [Option.getD_some]
    cases hb : (Sys.run es Sys.init).store.boundary latest cutoff with
    | none =>
      unfold Store.cleanup at h
      rw [hb] at h
      cases h
      exact hc
    | some b =>
      refine covered_cleanup h hb ?_ hc
      obtain ⟨-, c, hc, hbc, -, hct⟩ := boundary_spec hb
      have hcf := (inv_run es).commits c hc
      rcases Nat.lt_or_ge v c.version with hlt | hge
      · have := hmono v c.version a _ (by omega) hv hcf
        dsimp only at this
        omega
      · omega

/-- **C40.** A version younger than the cut-off can still be loaded after the clean-up, with the same
contents, if the hint is not newer. -/
theorem C40_retained_versions_load (es : List Ev) (hes : NoCompact es) (latest : Nat) (cutoff : Int)
    (hmono : Monotone (Sys.run es Sys.init).history) (v : Nat) (a : Int × List Action)
    (hv : (Sys.run es Sys.init).history[v]? = some a) (hnew : cutoff < a.1)
    (hc : Covered (Sys.run es Sys.init).store v)
    (hh : ∀ h, (Sys.run es Sys.init).store.hint = some h → h.version ≤ v)
    (hd : Described (Sys.run es Sys.init) v) :
    ∃ t, ((Sys.run es Sys.init).step (.cleanup latest cutoff)).store.load v = some t ∧
      Contents t ((((Sys.run es Sys.init).history.take (v + 1)).map (·.2)).flatten) := by
  have hcov := C40_retained_versions_stay_covered es latest cutoff hmono v a hv hnew hc
  have hrun : (Sys.run es Sys.init).step (.cleanup latest cutoff) =
      Sys.run (es ++ [.cleanup latest cutoff]) Sys.init := by simp [Sys.run]
  have hnc : NoCompact (es ++ [.cleanup latest cutoff]) := by
    intro a b t h
    simp at h
    exact hes a b t h
  have hhist : ((Sys.run es Sys.init).step (.cleanup latest cutoff)).history = (Sys.run es Sys.init).history := rfl
  have hhint : ((Sys.run es Sys.init).step (.cleanup latest cutoff)).store.hint = (Sys.run es Sys.init).store.hint := by
    simp only [Sys.step]
    cases h : (Sys.run es Sys.init).store.cleanup latest cutoff with
    | none => rfl
    | some st =>
      obtain rfl | ⟨b, mid, -, hmid, rfl⟩ := cleanup_cases h
      · rfl
      · exact (ensureClassic_comps hmid).2.2
  rw [← hhist]
  rw [← hhint] at hh
  have hd' : Described ((Sys.run es Sys.init).step (.cleanup latest cutoff)) v := hd
  rw [hrun] at hcov hh hd' ⊢
  exact C39_covered_versions_load_partial _ hnc v hcov hh hd'

/-- **C40.** A clean-up does not change the newest version. -/
theorem C40_newest_version_unchanged (es : List Ev) (hes : NoCompact es) (latest : Nat) (cutoff : Int)
    (n : Nat) (hn : (Sys.run es Sys.init).history.length = n + 1) (t : Table)
    (ht : (Sys.run es Sys.init).store.load n = some t) :
    ∃ t', ((Sys.run es Sys.init).step (.cleanup latest cutoff)).store.load n = some t' ∧
      ((Sys.run es Sys.init).step (.cleanup latest cutoff)).store.latest = some n ∧
      t'.protocol = t.protocol ∧ t'.metadata = t.metadata ∧ (∀ x, x ∈ t'.domains ↔ x ∈ t.domains) ∧
      ∀ x, x ∈ t'.adds ↔ x ∈ t.adds := by
  have h1 := (C37_load_equals_history es hes n t ht).2
  have hrun : (Sys.run es Sys.init).step (.cleanup latest cutoff) =
      Sys.run (es ++ [.cleanup latest cutoff]) Sys.init := by simp [Sys.run]
  have hnc : NoCompact (es ++ [.cleanup latest cutoff]) := by
    intro a b t h
    simp at h
    exact hes a b t h
  have hhist : (Sys.run (es ++ [.cleanup latest cutoff]) Sys.init).history = (Sys.run es Sys.init).history := by
    rw [← hrun]; rfl
  have hmem : ∀ {P : Action → Prop} {as : List Action} {a : Action}, LastIs P as a → a ∈ as := by
    rintro P as a ⟨pre, post, rfl, -⟩; simp
  have hd : Described (Sys.run (es ++ [.cleanup latest cutoff]) Sys.init) n := by
    unfold Described
    rw [hhist]
    exact ⟨⟨_, hmem h1.protocol⟩, _, hmem h1.metadata⟩
  obtain ⟨hl, t', ht', h2⟩ := C39_newest_version_loads _ hnc n (by rw [hhist]; exact hn) hd
  rw [hhist] at h2
  rw [List.take_of_length_le (by omega)] at h1
  rw [hrun]
  refine ⟨t', ht', hl, ?_, ?_, ?_, ?_⟩
  · have := lastIs_unique h2.protocol h1.protocol
    injection this
  · have := lastIs_unique h2.metadata h1.metadata
    injection this
  · rintro ⟨d, v⟩; rw [h2.domains, h1.domains]
  · rintro ⟨k, f⟩; rw [h2.files, h1.files]

example : Monotone (Sys.run exLong Sys.init).history := by
  have h : (Sys.run exLong Sys.init).history =
    [(10, exCreate), (20, exReplace), (30, exAppend), (40, [.other]), (50, [.other])] := by decide
  rw [h]
  intro i j a b hij ha hb
  rcases i with _ | _ | _ | _ | _ | i <;> rcases j with _ | _ | _ | _ | _ | j <;> simp at ha hb <;>
    first | omega | (subst ha; subst hb; simp)

/-- Clean-up deletes something here, keeps the checkpoint of version 1 and the younger versions. -/
example : ((Sys.run exLong Sys.init).step (.cleanup 4 35)).store.commits.map (·.version) = [1, 2, 3, 4] ∧
    ((Sys.run exLong Sys.init).step (.cleanup 4 35)).store.ckpts.map (·.version) = [1, 3] ∧
    ((Sys.run exLong Sys.init).step (.cleanup 4 45)).store.ckpts.map (fun c => (c.version, c.name)) =
      [(3, some 9), (3, none)] := by decide

end Verif.Delta.Log
