import Verif.Delta.CompactLemmas

/-! # C38: log compactions -/

namespace Verif.Delta.Log

open Spec

theorem compsOk_step {y : Sys} (hi : Inv y) (hc : CompsOk y) (e : Ev)
    (hl : ∀ a b t, e = .compact a b t → a < b → Lossless (slice y.history a b) t) : CompsOk (y.step e) := by
  cases e with
  | commit ts as =>
    intro c hcm
    obtain ⟨h1, h2, h3⟩ := hc c hcm
    refine ⟨h1, by simp only [Sys.step, List.length_append]; omega, ?_⟩
    have : slice (y.history ++ [(ts, as)]) c.start c.stop = slice y.history c.start c.stop := by
      unfold slice
      rw [List.drop_append_of_le_length (by omega), List.take_append_of_le_length (by simp; omega)]
    simp only [Sys.step]
    rw [this]
    exact h3
  | checkpoint v now v2 hinted =>
    simp only [Sys.step]
    cases h : y.store.createCkpt v now v2 hinted with
    | none => exact hc
    | some st =>
      intro c hcm
      simp only [Option.getD_some] at hcm
      rw [(createCkpt_comps h).1] at hcm
      exact hc c hcm
  | compact a b t =>
    simp only [Sys.step]
    cases h : y.store.compact a b t with
    | none => exact hc
    | some st => exact compsOk_compact hi hc h (hl a b t rfl)
  | cleanup l cut =>
    simp only [Sys.step]
    cases h : y.store.cleanup l cut with
    | none => exact hc
    | some st =>
      intro c hcm
      simp only [Option.getD_some] at hcm
      obtain rfl | ⟨b, mid, -, hm, rfl⟩ := cleanup_cases h
      · exact hc c hcm
      · have hcm := List.mem_of_mem_filter hcm
        have : mid.comps = y.store.comps := by
          obtain rfl | ⟨_, _, _, hco⟩ := ensureClassic_cases hm
          · rfl
          · unfold Store.copyClassic at hco
            split at hco
            · cases hco
            · cases hco; rfl
        rw [this] at hcm
        exact hc c hcm

namespace Spec

/-- Whenever the log is compacted, nothing that the compaction leaves out is needed: no domain is
removed at the end of the range and no tombstone left by the range is older than the limit. -/
def LosslessRun (es : List Ev) : Prop :=
  ∀ pre a b t post, es = pre ++ .compact a b t :: post → a < b →
    Lossless (((((Sys.run pre Sys.init).history.drop a).take (b + 1 - a)).map (·.2)).flatten) t

end Spec

theorem run_snoc (es : List Ev) (e : Ev) (y : Sys) : Sys.run (es ++ [e]) y = (Sys.run es y).step e := by
  simp [Sys.run]

theorem compsOk_run {es : List Ev} (hl : LosslessRun es) : CompsOk (Sys.run es Sys.init) := by
  induction es using List.reverseRecOn with
  | nil => intro c hc; cases hc
  | append_singleton es e ih =>
    rw [run_snoc]
    refine compsOk_step (inv_run es) (ih ?_) e ?_
    · intro pre a b t post h
      exact hl pre a b t (post ++ [e]) (by rw [h]; simp)
    · rintro a b t rfl hab
      have := hl es a b t [] rfl hab
      rwa [slice, acts, List.flatMap_def]

/-- **C38, positive part.** With compactions of any ranges, made at any time, a version that can be
loaded has the contents its history gives it, if the compactions leave out nothing that is needed and
none of them begins right after a checkpoint. What is missing: the statement without these two
conditions is false, see the witnesses below. -/
theorem C38_load_with_compactions_partial (es : List Ev) (hl : LosslessRun es)
    (hu : Unaligned (Sys.run es Sys.init).store) (v : Nat) (t : Table)
    (h : (Sys.run es Sys.init).store.load v = some t) :
    v < (Sys.run es Sys.init).history.length ∧
      Contents t ((((Sys.run es Sys.init).history.take (v + 1)).map (·.2)).flatten) := by
  have hi := inv_run es
  have hc := compsOk_run hl
  have : v < (Sys.run es Sys.init).history.length ∧
      Contents t (acts ((Sys.run es Sys.init).history.take (v + 1))) := by
    unfold Store.load at h
    split at h
    · cases h
    · rename_i g hg
      split at h
      · cases h
      · rename_i s hr
        by_cases g1 : g.comps = []
        · obtain ⟨r1, r2⟩ := replay_spec hi hg g1 hr
          exact ⟨resolve_lt hi hg g1, table_spec r1 r2 h⟩
        · obtain ⟨s', hs', r1, r2, r3⟩ := replay_comps hi hc hu hg g1
          rw [hr] at hs'
          cases hs'
          exact ⟨r3, table_spec r1 r2 h⟩
  rw [acts, List.flatMap_def] at this
  exact this

/-! ## Compactions never make a version unreadable -/

/-- Two intervals have no version in common. -/
def Apart (p q : Nat × Nat) : Prop := p.2 < q.1 ∨ q.2 < p.1

theorem chain_complete {stop : Nat} (l : List (Nat × Nat)) : ∀ e, e ≤ stop + 1 →
    l.Pairwise (fun a b => a.1 ≤ b.1) → l.Pairwise Apart → (∀ p ∈ l, p.1 ≤ p.2 ∧ e ≤ p.1 ∧ p.2 ≤ stop) →
    (∀ w, e ≤ w → w ≤ stop → ∃ p ∈ l, p.1 ≤ w ∧ w ≤ p.2) → chain stop l e = true := by
  induction l with
  | nil =>
    intro e he _ _ _ hcov
    unfold chain
    by_contra hn
    have hn : e ≠ stop + 1 := by simpa using hn
    obtain ⟨p, hp, -⟩ := hcov e (Nat.le_refl _) (by omega)
    cases hp
  | cons p l ih =>
    obtain ⟨s, f⟩ := p
    intro e he hs ha hin hcov
    obtain ⟨hs1, hs2⟩ := List.pairwise_cons.mp hs
    obtain ⟨ha1, ha2⟩ := List.pairwise_cons.mp ha
    have h0 := hin (s, f) (by simp)
    dsimp only at h0
    have hse : s = e := by
      obtain ⟨q, hq, hq1, hq2⟩ := hcov e (Nat.le_refl _) (by omega)
      rw [List.mem_cons] at hq
      obtain rfl | hq := hq
      · dsimp only at hq1; omega
      · have := hs1 q hq; dsimp only at this; omega
    unfold chain
    rw [if_neg (by omega)]
    have hafter : ∀ q ∈ l, f + 1 ≤ q.1 := by
      intro q hq
      have h1 := hs1 q hq
      have h2 := ha1 q hq
      have h3 := (hin q (by simp [hq])).1
      unfold Apart at h2
      dsimp only at h1 h2
      omega
    refine ih (f + 1) (by omega) hs2 ha2 (fun q hq => ⟨(hin q (by simp [hq])).1, hafter q hq, (hin q (by simp [hq])).2.2⟩) ?_
    intro w hw hws
    obtain ⟨q, hq, hq1, hq2⟩ := hcov w (by omega) hws
    rw [List.mem_cons] at hq
    obtain rfl | hq := hq
    · dsimp only at hq2; omega
    · exact ⟨q, hq, hq1, hq2⟩

theorem pickComps_apart {cs : List Comp} (hlt : ∀ c ∈ cs, c.start < c.stop) : ∀ covered,
    (pickComps cs covered).Pairwise (fun a b => b.stop < a.start) ∧
      ∀ b, covered = some b → ∀ c ∈ pickComps cs covered, c.stop < b := by
  induction cs with
  | nil => intro covered; exact ⟨List.Pairwise.nil, fun b _ c hc => absurd hc List.not_mem_nil⟩
  | cons x xs ih =>
    intro covered
    have ih := ih (fun c hc => hlt c (by simp [hc]))
    have hx := hlt x (by simp)
    unfold pickComps
    split
    · exact ih covered
    · rename_i hcov
      obtain ⟨i1, i2⟩ := ih (some x.start)
      refine ⟨List.pairwise_cons.mpr ⟨fun c hc => i2 x.start rfl c hc, i1⟩, ?_⟩
      rintro b rfl c hc
      have hxb : x.stop < b := by simpa using hcov
      rw [List.mem_cons] at hc
      obtain rfl | hc := hc
      · exact hxb
      · have := i2 x.start rfl c hc
        omega

theorem resolve_ok {y : Sys} (hi : Inv y) (hv : Cov y) (hlt : ∀ c ∈ y.store.comps, c.start < c.stop) {v : Nat}
    (hh : ∀ h ∈ y.store.hint, h.version ≤ v) (hc : Covered y.store v) : ∃ g, y.store.resolve v = some g := by
  have hex := segment_exists hi hv hh hc
  have hsort := listCommits_sorted hi.nodup (y.store.offset v) v
  unfold Store.resolve
  dsimp only
  have hks : firstAfter (selectCkpt (y.store.listCkpts (y.store.offset v) v) y.store.hint) ≤ v + 1 := by
    cases hk : selectCkpt (y.store.listCkpts (y.store.offset v) v) y.store.hint with
    | none => exact Nat.zero_le _
    | some c => have := (mem_of_listCkpts hk).2.2; simp only [firstAfter]; omega
  generalize firstAfter (selectCkpt (y.store.listCkpts (y.store.offset v) v) y.store.hint) = start at *
  have hcs : (List.map (·.version) ((y.store.listCommits (y.store.offset v) v).filter
      fun c => decide (start ≤ c.version ∧ c.version ≤ v))) = List.range' start (v + 1 - start) := by
    rw [filter_map_version (p := fun x => decide (start ≤ x ∧ x ≤ v))]
    exact filter_eq_range' hsort hex
  have hps : ∀ c ∈ (y.store.listComps (y.store.offset v) v).filter
      fun c => decide (start ≤ c.start ∧ c.stop ≤ v), c.start < c.stop ∧ start ≤ c.start ∧ c.stop ≤ v := by
    intro c hc
    obtain ⟨h1, h2⟩ := List.mem_filter.mp hc
    exact ⟨hlt c (mem_listComps h1), by simpa using h2⟩
  generalize (y.store.listCommits (y.store.offset v) v).filter
      (fun c => decide (start ≤ c.version ∧ c.version ≤ v)) = cs at *
  generalize (y.store.listComps (y.store.offset v) v).filter
      (fun c => decide (start ≤ c.start ∧ c.stop ≤ v)) = ps at *
  rw [if_pos]
  · exact ⟨_, rfl⟩
  · unfold resolveComps
    dsimp only
    have hpick := (pickComps_apart (cs := ps.insSort fun a b => decide (b.stop ≤ a.stop))
      (fun c hc => (hps c (mem_insSort.mp hc)).1) none).1
    have hpickm : ∀ c ∈ pickComps (ps.insSort fun a b => decide (b.stop ≤ a.stop)) none,
        c.start < c.stop ∧ start ≤ c.start ∧ c.stop ≤ v := fun c hc => hps c (mem_insSort.mp (pickComps_mem hc))
    generalize pickComps (ps.insSort fun a b => decide (b.stop ≤ a.stop)) none = picked at *
    have hcv : ∀ c ∈ cs, start ≤ c.version ∧ c.version ≤ v := by
      intro c hc
      have : c.version ∈ cs.map (·.version) := List.mem_map.mpr ⟨c, hc, rfl⟩
      rw [hcs, List.mem_range'_1] at this
      omega
    unfold validate
    split
    · rfl
    · split
      · rename_i hnil
        have hnil := insSort_eq_nil.mp hnil
        subst hnil
        have : (cs.filter fun c => !([] : List Comp).any fun p =>
            decide (p.start ≤ c.version ∧ c.version ≤ p.stop)) = cs := by
          rw [List.filter_eq_self]; intro c _; simp
        rw [this, hcs, contiguous_iff (Nat.le_refl _) hks, List.filter_eq_self]
        intro x hx
        rw [List.mem_range'_1] at hx
        simp
        omega
      · apply chain_complete _ _ hks
        · have := insSort_sorted (le := fun a b : Nat × Nat => decide (a.1 ≤ b.1))
            (by intro a b; simp only [decide_eq_true_eq]; omega)
            (by intro a b c; simp only [decide_eq_true_eq]; omega)
          exact (this _).imp (by intro a b h; simpa using h)
        · have hsymm : ∀ {a b : Nat × Nat}, Apart a b → Apart b a := by
            intro a b h; unfold Apart at *; omega
          rw [(insSort_perm _).pairwise_iff hsymm, List.pairwise_append]
          refine ⟨?_, ?_, ?_⟩
          · rw [List.pairwise_map]
            have h1 : (cs.map (·.version)).Pairwise (· < ·) := by rw [hcs]; exact List.pairwise_lt_range'
            rw [List.pairwise_map] at h1
            exact ((h1.sublist List.filter_sublist).sublist List.filter_sublist).imp (fun h => .inl h)
          · rw [((insSort_perm _).map _).pairwise_iff hsymm, List.pairwise_map]
            exact hpick.imp (fun h => .inr h)
          · intro p hp q hq
            obtain ⟨c, hc, rfl⟩ := List.mem_map.mp hp
            obtain ⟨k, hk, rfl⟩ := List.mem_map.mp hq
            have hc := (List.mem_filter.mp (List.mem_of_mem_filter hc)).2
            have hk := mem_insSort.mp hk
            simp only [Bool.not_eq_true', List.any_eq_false, decide_eq_true_eq] at hc
            have := hc k hk
            unfold Apart
            dsimp only
            omega
        · intro p hp
          obtain hp | hp := List.mem_append.mp (mem_insSort.mp hp)
          · obtain ⟨c, hc, rfl⟩ := List.mem_map.mp hp
            have := hcv c (List.mem_of_mem_filter (List.mem_of_mem_filter hc))
            dsimp only
            omega
          · obtain ⟨k, hk, rfl⟩ := List.mem_map.mp hp
            have := hpickm k (mem_insSort.mp hk)
            dsimp only
            omega
        · intro w hw hwv
          have : w ∈ cs.map (·.version) := by rw [hcs, List.mem_range'_1]; omega
          obtain ⟨c, hc, rfl⟩ := List.mem_map.mp this
          by_cases hin : ∃ p ∈ picked, p.start ≤ c.version ∧ c.version ≤ p.stop
          · obtain ⟨p, hp, hp'⟩ := hin
            refine ⟨(p.start, p.stop), mem_insSort.mpr (List.mem_append.mpr (.inr ?_)), hp'⟩
            exact List.mem_map.mpr ⟨p, mem_insSort.mpr hp, rfl⟩
          · refine ⟨(c.version, c.version), mem_insSort.mpr (List.mem_append.mpr (.inl ?_)), Nat.le_refl _, Nat.le_refl _⟩
            refine List.mem_map.mpr ⟨c, List.mem_filter.mpr ⟨List.mem_filter.mpr ⟨hc, ?_⟩, ?_⟩, rfl⟩
            · simp only [Bool.not_eq_true', List.any_eq_false, decide_eq_true_eq]
              exact fun p hp hp' => hin ⟨p, hp, hp'⟩
            · simpa using hcv c hc

theorem load_ok_comps {y : Sys} (hi : Inv y) (hv : Cov y) (hcomps : CompsOk y) (hu : Unaligned y.store) {v : Nat}
    (hh : ∀ h ∈ y.store.hint, h.version ≤ v) (hc : Covered y.store v)
    (hp : ∃ p, .protocol p ∈ acts (y.history.take (v + 1)))
    (hm : ∃ m, .metadata m ∈ acts (y.history.take (v + 1))) : ∃ t, y.store.load v = some t := by
  obtain ⟨g, hg⟩ := resolve_ok hi hv (fun c h => (hcomps c h).1) hh hc
  have hrep : ∃ s, g.replay v = some s ∧ Agree s (acts (y.history.take (v + 1))) := by
    by_cases g1 : g.comps = []
    · obtain ⟨g2, g3, start, hs, hle, g4⟩ := resolve_spec hg g1
      have : ∃ s, g.replay v = some s := by
        unfold Segment.replay
        rw [if_pos g1]
        apply replayCommits_ok
        intro hfv
        rw [first_eq hs hle g1 g3 g4, g4, List.filter_eq_self]
        intro x hx
        rw [List.mem_range'_1] at hx
        simp
        omega
      obtain ⟨s, hs⟩ := this
      exact ⟨s, hs, (replay_spec hi hg g1 hs).2⟩
    · obtain ⟨s, h1, -, h2, -⟩ := replay_comps hi hcomps hu hg g1
      exact ⟨s, h1, h2⟩
  obtain ⟨s, hs', ha⟩ := hrep
  obtain ⟨p, hp⟩ := hp
  obtain ⟨m, hm⟩ := hm
  obtain ⟨_, hp⟩ := lastIs_exists (P := IsProtocol) ⟨_, hp, p, rfl⟩
  obtain ⟨_, hm⟩ := lastIs_exists (P := IsMetadata) ⟨_, hm, m, rfl⟩
  obtain ⟨p, rfl⟩ : IsProtocol _ := by obtain ⟨_, _, _, h, _⟩ := hp; exact h
  obtain ⟨m, rfl⟩ : IsMetadata _ := by obtain ⟨_, _, _, h, _⟩ := hm; exact h
  unfold Store.load
  rw [hg]
  dsimp only
  rw [hs']
  dsimp only
  unfold State.table
  rw [(ha.protocol p).mpr hp, (ha.metadata m).mpr hm]
  exact ⟨_, rfl⟩

/-- **C38, positive part.** Compactions do not make a version unreadable: a version covered by commits
(and possibly a checkpoint) not older than the last checkpoint hint loads, with the right contents. What is
missing: as for `C38_load_with_compactions_partial`. -/
theorem C38_covered_versions_load_partial (es : List Ev) (hl : LosslessRun es)
    (hu : Unaligned (Sys.run es Sys.init).store) (v : Nat)
    (hc : Covered (Sys.run es Sys.init).store v)
    (hh : ∀ h, (Sys.run es Sys.init).store.hint = some h → h.version ≤ v)
    (hd : Described (Sys.run es Sys.init) v) :
    ∃ t, (Sys.run es Sys.init).store.load v = some t ∧
      Contents t ((((Sys.run es Sys.init).history.take (v + 1)).map (·.2)).flatten) := by
  obtain ⟨hp, hm⟩ := described_acts hd
  obtain ⟨t, ht⟩ := load_ok_comps (inv_run es) (cov_run es) (compsOk_run hl) hu hh hc hp hm
  exact ⟨t, ht, (C38_load_with_compactions_partial es hl hu v t ht).2⟩

/-! A history with a checkpoint of version 1, a compaction of versions 3 to 4 and another of 0 to 2. -/

def exCompacted : List Ev :=
  [.commit 10 exCreate, .commit 20 [.remove ⟨1, none⟩ (some 20), .add ⟨2, none⟩ 11, .domain 3 (some 4)],
    .checkpoint 1 100 none false, .commit 30 [.add ⟨1, none⟩ 12], .commit 40 [.remove ⟨2, none⟩ (some 40)],
    .commit 50 [.domain 3 (some 6), .add ⟨4, none⟩ 13], .compact 3 4 30, .compact 0 2 0, .commit 60 [.other]]

theorem lastIs_mem {P : Action → Prop} {as : List Action} {a : Action} (h : LastIs P as a) : a ∈ as := by
  obtain ⟨u, w, rfl, -, -⟩ := h
  simp

example : LosslessRun exCompacted := by
  have key : ∀ (as : List Action) (t : Int), (∀ d, Action.domain d none ∉ as) →
      (∀ k t', Action.remove k (some t') ∈ as → t ≤ t') → Lossless as t :=
    fun as t h1 h2 => ⟨fun d h => h1 d (lastIs_mem h), fun k t' h => h2 k t' (lastIs_mem h)⟩
  intro pre a b t post h hab
  have hn : pre.length = 6 ∨ pre.length = 7 := by
    have h1 := congrArg (fun l : List Ev => l[pre.length]?) h
    have hlen := congrArg List.length h
    simp only [List.length_append, List.length_cons] at hlen
    have : pre.length < 9 := by
      have : exCompacted.length = 9 := rfl
      omega
    simp at h1
    generalize pre.length = n at *
    match n, this, h1 with
    | 0, _, h1 | 1, _, h1 | 2, _, h1 | 3, _, h1 | 4, _, h1 | 5, _, h1 | 8, _, h1 => simp [exCompacted] at h1
    | 6, _, _ => exact .inl rfl
    | 7, _, _ => exact .inr rfl
  have hpre : pre = exCompacted.take pre.length := by rw [h]; simp
  have hev : exCompacted[pre.length]? = some (.compact a b t) := by rw [h]; simp
  obtain hn | hn := hn
  · rw [hn] at hpre hev
    rw [hpre]
    simp only [exCompacted, List.getElem?_cons_succ, List.getElem?_cons_zero, Option.some.injEq, Ev.compact.injEq] at hev
    obtain ⟨rfl, rfl, rfl⟩ := hev
    apply key
    · intro d
      simp [exCompacted, Sys.run, Sys.init, Sys.step]
    · intro k t'
      simp [exCompacted, Sys.run, Sys.init, Sys.step]
      omega
  · rw [hn] at hpre hev
    rw [hpre]
    simp only [exCompacted, List.getElem?_cons_succ, List.getElem?_cons_zero, Option.some.injEq, Ev.compact.injEq] at hev
    obtain ⟨rfl, rfl, rfl⟩ := hev
    apply key
    · intro d
      simp [exCompacted, Sys.run, Sys.init, Sys.step, exCreate]
    · intro k t'
      simp [exCompacted, Sys.run, Sys.init, Sys.step, exCreate]
      omega

example : Unaligned (Sys.run exCompacted Sys.init).store := by
  have : ∀ k ∈ (Sys.run exCompacted Sys.init).store.ckpts, ∀ c ∈ (Sys.run exCompacted Sys.init).store.comps,
    c.start ≠ k.version + 1 := by decide
  exact this

example : ((Sys.run exCompacted Sys.init).store.resolve 5).map (fun g => (g.ckpt.map (·.version), g.commits.map (·.version),
    g.comps.map fun c => (c.start, c.stop))) = some (some 1, [2, 5], [(3, 4)]) := by decide

example : (Sys.run exCompacted Sys.init).store.load 5 =
    some ⟨1, ⟨7, 1000, 2000⟩, [(5, ⟨1, none⟩)], [(3, 6)], [(⟨4, none⟩, 13), (⟨1, none⟩, 12)],
      [(⟨2, none⟩, some 40)]⟩ := by decide

/-! ## Disagreements -/

/-- The same events without the compactions. -/
def dropCompact (es : List Ev) : List Ev := es.filter fun e => match e with
  | .compact _ _ _ => false
  | _ => true

/-- **C38, disagreement 1.** A compaction leaves out that a domain was removed: the domain, set by an
earlier commit, comes back. -/
theorem C38_compaction_revives_domain :
    let es : List Ev := [.commit 10 exCreate, .commit 20 [.domain 3 (some 4)], .commit 30 [.domain 3 none],
      .commit 40 [.other], .compact 2 3 0]
    ((Sys.run es Sys.init).store.load 3).map (·.domains) = some [(3, 4)] ∧
    ((Sys.run (dropCompact es) Sys.init).store.load 3).map (·.domains) = some [] := by decide

/-- **C38, disagreement 2.** A compaction leaves out old tombstones although the removed file was added
before the compacted range: the file comes back. -/
theorem C38_compaction_revives_file :
    let es : List Ev := [.commit 10 exCreate, .commit 20 [.remove ⟨1, none⟩ (some 20)], .commit 30 [.other],
      .compact 1 2 1000]
    ((Sys.run es Sys.init).store.load 2).map (·.adds) = some [(⟨1, none⟩, 10)] ∧
    ((Sys.run (dropCompact es) Sys.init).store.load 2).map (·.adds) = some [] := by decide

/-- **C38, disagreement 3.** A compaction that begins right after a checkpoint and is followed by a
commit is skipped: the file added in its range is not seen. -/
theorem C38_compaction_after_checkpoint_is_skipped :
    let es : List Ev := [.commit 10 exCreate, .checkpoint 0 10 none true, .commit 20 [.add ⟨8, none⟩ 80],
      .commit 30 [.other], .compact 1 2 0, .commit 40 [.other]]
    ((Sys.run es Sys.init).store.load 3).map (·.adds) = some [(⟨1, none⟩, 10)] ∧
    ((Sys.run (dropCompact es) Sys.init).store.load 3).map (·.adds) = some [(⟨8, none⟩, 80), (⟨1, none⟩, 10)] := by decide

end Verif.Delta.Log
