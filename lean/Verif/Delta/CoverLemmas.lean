import Verif.Delta.LogProps

/-! # Lemmas: which versions a Delta log covers -/

namespace Verif.Delta.Log

open Spec

namespace Spec

/-- All commits up to `v` are in the log, or those after some checkpoint not newer than `v`. -/
def Covered (st : Store) (v : Nat) : Prop :=
  (∀ w, w ≤ v → ∃ c ∈ st.commits, c.version = w) ∨
  ∃ k ∈ st.ckpts, k.version ≤ v ∧ ∀ w, k.version < w → w ≤ v → ∃ c ∈ st.commits, c.version = w

end Spec

theorem lastIs_exists {P : Action → Prop} {as : List Action} (h : ∃ a ∈ as, P a) : ∃ a, LastIs P as a := by
  classical
  induction as using List.reverseRecOn with
  | nil => obtain ⟨a, ha, -⟩ := h; cases ha
  | append_singleton as x ih =>
    by_cases hx : P x
    · exact ⟨x, lastIs_snoc.mpr (.inl ⟨hx, rfl⟩)⟩
    · obtain ⟨a, ha, hPa⟩ := h
      rw [List.mem_append, List.mem_singleton] at ha
      obtain ha | rfl := ha
      · obtain ⟨b, hb⟩ := ih ⟨a, ha, hPa⟩
        exact ⟨b, lastIs_snoc.mpr (.inr ⟨hx, hb⟩)⟩
      · exact absurd hPa hx

/-- A strictly increasing list containing `a..b` is `a..b` when restricted to that range. -/
theorem filter_eq_range' {l : List Nat} (hs : l.Pairwise (· < ·)) {a b : Nat}
    (hm : ∀ w, a ≤ w → w ≤ b → w ∈ l) :
    l.filter (fun v => decide (a ≤ v ∧ v ≤ b)) = List.range' a (b + 1 - a) := by
  have h1 : (l.filter (fun v => decide (a ≤ v ∧ v ≤ b))).Pairwise (· < ·) := hs.sublist List.filter_sublist
  have h2 : (List.range' a (b + 1 - a)).Pairwise (· < ·) := by
    have := List.pairwise_lt_range' (s := a) (n := b + 1 - a) (step := 1) (by omega)
    exact this
  refine List.Perm.eq_of_pairwise (le := (· < ·)) (fun x y _ _ hxy hyx => absurd hyx (by omega)) h1 h2 ?_
  rw [List.perm_ext_iff_of_nodup]
  · intro x
    simp only [List.mem_filter, decide_eq_true_eq, List.mem_range'_1]
    constructor
    · rintro ⟨-, h1, h2⟩; omega
    · intro h; exact ⟨hm x (by omega) (by omega), by omega, by omega⟩
  · exact h1.imp (fun h => by omega)
  · exact h2.imp (fun h => by omega)

theorem listCommits_sorted {st : Store} (hn : (st.commits.map (·.version)).Nodup) (off max : Nat) :
    ((st.listCommits off max).map (·.version)).Pairwise (· < ·) := by
  have h1 : (st.listCommits off max).Pairwise fun a b => decide (a.version ≤ b.version) = true :=
    insSort_sorted (by intro a b; simp only [decide_eq_true_eq]; omega)
      (by intro a b c; simp only [decide_eq_true_eq]; omega) _
  have h2 : ((st.listCommits off max).map (·.version)).Nodup := by
    have hp := (insSort_perm (le := fun a b : Commit => decide (a.version ≤ b.version))
      (st.commits.filter fun c => off ≤ c.version ∧ c.version ≤ max)).map (·.version)
    refine hp.nodup_iff.mpr (hn.sublist (List.Sublist.map _ List.filter_sublist))
  have h3 : ((st.listCommits off max).map (·.version)).Pairwise (· ≤ ·) := by
    rw [List.pairwise_map]
    exact h1.imp (by intro a b h; simpa using h)
  rw [List.Nodup] at h2
  exact (h3.and h2).imp (by rintro a b ⟨h, h'⟩; omega)

/-- A selected checkpoint is at least as new as every candidate, unless the file named in the hint is gone. -/
theorem selectCkpt_newest {cands : List Ckpt} {hint : Option Hint}
    (hh : ∀ h ∈ hint, ∀ x ∈ cands, x.version = h.version → ∃ y ∈ cands, y.version = h.version ∧ y.name = h.name)
    {k : Ckpt} (hk : k ∈ cands) : ∃ c, selectCkpt cands hint = some c ∧ k.version ≤ c.version := by
  unfold selectCkpt
  have hsorted : (cands.insSort ckptBefore).Pairwise fun a b => ckptBefore a b = true := by
    apply insSort_sorted
    · rintro ⟨a, an, _⟩ ⟨b, bn, _⟩
      simp only [ckptBefore, Bool.or_eq_true, Bool.and_eq_true, decide_eq_true_eq]
      rcases an with _ | x <;> rcases bn with _ | y <;> simp <;> omega
    · rintro ⟨a, an, _⟩ ⟨b, bn, _⟩ ⟨c, cn, _⟩
      simp only [ckptBefore, Bool.or_eq_true, Bool.and_eq_true, decide_eq_true_eq]
      rcases an with _ | x <;> rcases bn with _ | y <;> rcases cn with _ | z <;> simp <;> omega
  split
  · rename_i h0
    rw [insSort_eq_nil] at h0
    subst h0; cases hk
  · rename_i x xs hx
    rw [hx] at hsorted
    have hmem : ∀ y, y ∈ x :: xs ↔ y ∈ cands := fun y => by rw [← hx, mem_insSort]
    have htop : ∀ y ∈ cands, y.version ≤ x.version := by
      intro y hy
      rw [← hmem, List.mem_cons] at hy
      obtain rfl | hy := hy
      · exact Nat.le_refl _
      · have := (List.pairwise_cons.mp hsorted).1 y hy
        simp only [ckptBefore, Bool.or_eq_true, Bool.and_eq_true, decide_eq_true_eq] at this
        omega
    split
    · rename_i v n
      split
      · rename_i hv
        split
        · rename_i z hz
          refine ⟨z, rfl, ?_⟩
          have := List.find?_some hz
          simp only [decide_eq_true_eq] at this
          have := htop k hk
          omega
        · rename_i hnone
          exfalso
          obtain ⟨y, hy, hy1, hy2⟩ := hh ⟨v, some n⟩ rfl x ((hmem x).mp (by simp)) hv.symm
          have := List.find?_eq_none.mp hnone y ((hmem y).mpr hy)
          simp only [decide_eq_true_eq] at this
          exact this ⟨hy1, hy2⟩
      · exact ⟨x, rfl, htop k hk⟩
    · exact ⟨x, rfl, htop k hk⟩

/-- The hint names an existing checkpoint, or everything it was about is deleted. -/
def HintOk (st : Store) : Prop :=
  ∀ h ∈ st.hint, (∃ c ∈ st.ckpts, c.version = h.version ∧ c.name = h.name) ∨
    ((∀ c ∈ st.ckpts, h.version < c.version) ∧ ∀ c ∈ st.commits, h.version < c.version)

/-- The second part of the invariant of a log. -/
structure Cov (y : Sys) : Prop where
  hint : HintOk y.store
  hintLe : ∀ h ∈ y.store.hint, h.version < y.history.length
  newest : ∀ n, y.history.length = n + 1 → (∃ c ∈ y.store.commits, c.version = n) ∧ Covered y.store n

theorem cov_init : Cov Sys.init := by
  refine ⟨?_, ?_, ?_⟩
  · intro h hh; cases hh
  · intro h hh; cases hh
  · intro n hn; simp [Sys.init] at hn

theorem mem_putCkpt_iff {st : Store} {c x : Ckpt} :
    x ∈ (st.putCkpt c).ckpts ↔ (x ∈ st.ckpts ∧ (x.version ≠ c.version ∨ x.name ≠ c.name)) ∨ x = c := by
  simp [Store.putCkpt]

theorem covered_mono {st st' : Store} (hc : ∀ c ∈ st.commits, ∃ c' ∈ st'.commits, c'.version = c.version)
    (hk : ∀ k ∈ st.ckpts, ∃ k' ∈ st'.ckpts, k'.version = k.version) {v : Nat} (h : Covered st v) :
    Covered st' v := by
  obtain h | ⟨k, hkm, hkv, h⟩ := h
  · refine .inl fun w hw => ?_
    obtain ⟨c, hcm, rfl⟩ := h w hw
    exact hc c hcm
  · obtain ⟨k', hk', he⟩ := hk k hkm
    refine .inr ⟨k', hk', by omega, fun w hw hwv => ?_⟩
    obtain ⟨c, hcm, rfl⟩ := h w (by omega) hwv
    exact hc c hcm

theorem putCkpt_versions {st : Store} {x k : Ckpt} (hk : k ∈ st.ckpts) :
    ∃ k' ∈ (st.putCkpt x).ckpts, k'.version = k.version := by
  by_cases h : k.version ≠ x.version ∨ k.name ≠ x.name
  · exact ⟨k, mem_putCkpt_iff.mpr (.inl ⟨hk, h⟩), rfl⟩
  · push Not at h
    exact ⟨x, mem_putCkpt_iff.mpr (.inr rfl), h.1.symm⟩

theorem putCkpt_names {st : Store} {x k : Ckpt} (hk : k ∈ st.ckpts) :
    ∃ k' ∈ (st.putCkpt x).ckpts, k'.version = k.version ∧ k'.name = k.name := by
  by_cases h : k.version ≠ x.version ∨ k.name ≠ x.name
  · exact ⟨k, mem_putCkpt_iff.mpr (.inl ⟨hk, h⟩), rfl, rfl⟩
  · push Not at h
    exact ⟨x, mem_putCkpt_iff.mpr (.inr rfl), h.1.symm, h.2.symm⟩

/-- Writing a checkpoint needs a commit or a checkpoint at most as new. -/
theorem checkpointState_needs {st : Store} {v : Nat} {now : Int} {s : State}
    (h : st.checkpointState v now = some s) :
    (∃ c ∈ st.ckpts, c.version ≤ v) ∨ ∃ c ∈ st.commits, c.version ≤ v := by
  unfold Store.checkpointState at h
  cases hb : ((st.listCkpts (st.offset v) v).insSort fun a b => decide (a.version ≤ b.version)).getLast? with
  | some c =>
    have hc := List.mem_of_getLast? hb
    rw [mem_insSort, mem_listCkpts] at hc
    exact .inl ⟨c, hc.1, hc.2.2⟩
  | none =>
    simp only [hb, firstAfter] at h
    split at h
    · cases h
    · rename_i s0 hs0
      unfold replayCommits at hs0
      rw [if_neg (by omega)] at hs0
      split at hs0
      · rename_i hc
        rw [contiguous_iff (Nat.le_refl _) (Nat.zero_le _)] at hc
        have h0 : 0 ∈ List.range' 0 (v + 1 - 0) := by simp
        rw [← hc] at h0
        have h0 := List.mem_of_mem_filter h0
        rw [List.mem_map] at h0
        obtain ⟨c, hc, hc0⟩ := h0
        exact .inr ⟨c, (mem_listCommits.mp hc).1, by omega⟩
      · cases hs0

theorem cov_createCkpt {y : Sys} (hi : Inv y) (hv : Cov y) {v : Nat} {now : Int} {v2 : Option Nat} {hinted : Bool}
    {st : Store} (h : y.store.createCkpt v now v2 hinted = some st) : Cov { y with store := st } := by
  unfold Store.createCkpt at h
  split at h
  · cases h
  · rename_i s hs
    have hlen := (checkpointState_spec hi hs).1
    have hneed := checkpointState_needs hs
    split at h
    · cases h
    · rename_i rows hrows
      have hst : st.commits = y.store.commits ∧ st.ckpts = (y.store.putCkpt ⟨v, v2, rows⟩).ckpts ∧
          (st.hint = y.store.hint ∨ st.hint = some ⟨v, v2⟩) := by
        cases h
        split
        · exact ⟨rfl, rfl, .inr rfl⟩
        · exact ⟨rfl, rfl, .inl rfl⟩
      obtain ⟨e1, e2, e3⟩ := hst
      refine ⟨?_, ?_, ?_⟩
      · intro h hh
        change h ∈ st.hint at hh
        change (∃ c ∈ st.ckpts, _) ∨ (∀ c ∈ st.ckpts, _) ∧ ∀ c ∈ st.commits, _
        rw [e1, e2]
        obtain e3 | e3 := e3
        · rw [e3] at hh
          obtain ⟨c, hc, hc1, hc2⟩ | ⟨h1, h2⟩ := hv.hint h hh
          · obtain ⟨c', h', h1, h2⟩ := putCkpt_names (x := ⟨v, v2, rows⟩) hc
            exact .inl ⟨c', h', h1.trans hc1, h2.trans hc2⟩
          · refine .inr ⟨?_, h2⟩
            intro c hc
            obtain hc | rfl := mem_putCkpt hc
            · exact h1 c hc
            · obtain ⟨c, hc, hcv⟩ | ⟨c, hc, hcv⟩ := hneed
              · have := h1 c hc; dsimp only; omega
              · have := h2 c hc; dsimp only; omega
        · rw [e3] at hh
          cases hh
          exact .inl ⟨_, mem_putCkpt_iff.mpr (.inr rfl), rfl, rfl⟩
      · intro h hh
        change h ∈ st.hint at hh
        obtain e3 | e3 := e3
        · rw [e3] at hh; exact hv.hintLe h hh
        · rw [e3] at hh; cases hh; exact hlen
      · intro n hn
        obtain ⟨h1, h2⟩ := hv.newest n hn
        refine ⟨by change ∃ c ∈ st.commits, _; rw [e1]; exact h1, ?_⟩
        refine covered_mono (st := y.store) (st' := st) ?_ ?_ h2
        · intro c hc; rw [e1]; exact ⟨c, hc, rfl⟩
        · intro k hk; rw [e2]; exact putCkpt_versions hk

theorem boundary_spec {st : Store} {l b : Nat} {cut : Int} (h : st.boundary l cut = some b) :
    (∃ k ∈ st.ckpts, k.version = b) ∧ ∃ c ∈ st.commits, b ≤ c.version ∧ c.version ≤ l ∧ c.ts ≤ cut := by
  unfold Store.boundary at h
  split at h
  · cases h
  · rename_i v hv
    have hv := List.max?_mem hv
    have h := List.max?_mem h
    rw [List.mem_map] at hv h
    obtain ⟨k, hk, hkb⟩ := h
    obtain ⟨c, hc, hcv⟩ := hv
    rw [List.mem_filter, decide_eq_true_eq] at hk hc
    exact ⟨⟨k, hk.1, hkb⟩, c, hc.1, by omega, by omega, hc.2.2⟩

/-- Deleting everything before a checkpoint keeps what is covered at or after it. -/
theorem covered_deleteBefore {st : Store} {b v : Nat} (hb : ∃ k ∈ st.ckpts, k.version = b) (hbv : b ≤ v)
    (h : Covered st v) : Covered (st.deleteBefore b) v := by
  obtain ⟨kb, hkb, hkbv⟩ := hb
  have hcm : ∀ w, b ≤ w → (∃ c ∈ st.commits, c.version = w) → ∃ c ∈ (st.deleteBefore b).commits, c.version = w := by
    rintro w hw ⟨c, hc, rfl⟩
    refine ⟨c, ?_, rfl⟩
    simp only [Store.deleteBefore, List.mem_filter]
    exact ⟨hc, by simp; omega⟩
  have hkm : ∀ k ∈ st.ckpts, b ≤ k.version → k ∈ (st.deleteBefore b).ckpts := by
    intro k hk hkv
    simp only [Store.deleteBefore, List.mem_filter]
    exact ⟨hk, by simp; omega⟩
  obtain h | ⟨k, hk, hkv, h⟩ := h
  · exact .inr ⟨kb, hkm kb hkb (by omega), by omega, fun w hw hwv => hcm w (by omega) (h w hwv)⟩
  · rcases Nat.lt_or_ge k.version b with hlt | hge
    · exact .inr ⟨kb, hkm kb hkb (by omega), by omega, fun w hw hwv => hcm w (by omega) (h w (by omega) hwv)⟩
    · exact .inr ⟨k, hkm k hk hge, hkv, fun w hw hwv => hcm w (by omega) (h w hw hwv)⟩

theorem ensureClassic_versions {st st' : Store} {v : Nat} (h : st.ensureClassic v = some st') :
    (∀ k ∈ st.ckpts, ∃ k' ∈ st'.ckpts, k'.version = k.version ∧ k'.name = k.name) ∧
    ∀ k' ∈ st'.ckpts, ∃ k ∈ st.ckpts, k'.version = k.version := by
  obtain rfl | ⟨c, hc, hcv, h⟩ := ensureClassic_cases h
  · exact ⟨fun k hk => ⟨k, hk, rfl, rfl⟩, fun k hk => ⟨k, hk, rfl⟩⟩
  · unfold Store.copyClassic at h
    split at h
    · cases h
    · cases h
      refine ⟨fun k hk => putCkpt_names hk, ?_⟩
      intro k hk
      obtain hk | rfl := mem_putCkpt hk
      · exact ⟨k, hk, rfl⟩
      · exact ⟨c, hc, rfl⟩

/-- What a clean-up does, if anything. -/
theorem cleanup_cases {st st' : Store} {l : Nat} {cut : Int} (h : st.cleanup l cut = some st') :
    st' = st ∨ ∃ b mid, st.boundary l cut = some b ∧ st.ensureClassic b = some mid ∧ st' = mid.deleteBefore b := by
  unfold Store.cleanup at h
  split at h
  · cases h; exact .inl rfl
  · rename_i b hb
    split at h
    · cases h
    · rename_i mid hmid
      cases h
      exact .inr ⟨b, mid, hb, hmid, rfl⟩

theorem covered_cleanup {st st' : Store} {l b v : Nat} {cut : Int} (h : st.cleanup l cut = some st')
    (hb : st.boundary l cut = some b) (hbv : b ≤ v) (hc : Covered st v) : Covered st' v := by
  obtain rfl | ⟨b', mid, hb', hmid, rfl⟩ := cleanup_cases h
  · exact hc
  · rw [hb] at hb'
    cases hb'
    obtain ⟨h1, -⟩ := ensureClassic_versions hmid
    obtain ⟨-, h2, -⟩ := ensureClassic_comps hmid
    refine covered_deleteBefore ?_ hbv (covered_mono (fun c hc => ⟨c, h2 ▸ hc, rfl⟩)
      (fun k hk => let ⟨k', hk', e, _⟩ := h1 k hk; ⟨k', hk', e⟩) hc)
    obtain ⟨⟨k, hk, hkb⟩, -⟩ := boundary_spec hb
    obtain ⟨k', hk', e, -⟩ := h1 k hk
    exact ⟨k', hk', e.trans hkb⟩

theorem cov_cleanup {y : Sys} (hi : Inv y) (hv : Cov y) {l : Nat} {cut : Int} {st : Store}
    (h : y.store.cleanup l cut = some st) : Cov { y with store := st } := by
  obtain rfl | ⟨b, mid, hb, hmid, rfl⟩ := cleanup_cases h
  · exact hv
  · obtain ⟨h1, h1'⟩ := ensureClassic_versions hmid
    obtain ⟨-, h2, h3⟩ := ensureClassic_comps hmid
    obtain ⟨⟨kb, hkb, hkbv⟩, -⟩ := boundary_spec hb
    refine ⟨?_, ?_, ?_⟩
    · intro hnt hh
      have hh : hnt ∈ y.store.hint := h3 ▸ hh
      rcases Nat.lt_or_ge hnt.version b with hlt | hge
      · refine .inr ⟨?_, ?_⟩
        · intro c hc
          simp only [Store.deleteBefore, List.mem_filter] at hc
          have := hc.2
          simp at this
          omega
        · intro c hc
          simp only [Store.deleteBefore, List.mem_filter] at hc
          have := hc.2
          simp at this
          omega
      · obtain ⟨c, hc, hc1, hc2⟩ | ⟨g1, g2⟩ := hv.hint hnt hh
        · obtain ⟨k', hk', e, e'⟩ := h1 c hc
          refine .inl ⟨k', ?_, by omega, e'.trans hc2⟩
          simp only [Store.deleteBefore, List.mem_filter]
          exact ⟨hk', by simp; omega⟩
        · have := g1 kb hkb
          omega
    · intro hnt hh
      exact hv.hintLe hnt (h3 ▸ hh)
    · intro n hn
      obtain ⟨⟨c, hc, hcn⟩, g2⟩ := hv.newest n hn
      have hbn : b ≤ n := by
        have := (hi.ckpts kb hkb).1
        have hn : y.history.length = n + 1 := hn
        omega
      refine ⟨⟨c, ?_, hcn⟩, covered_cleanup h hb hbn g2⟩
      simp only [Store.deleteBefore, List.mem_filter]
      exact ⟨h2 ▸ hc, by simp; omega⟩

theorem cov_step {y : Sys} (hi : Inv y) (hv : Cov y) (e : Ev) : Cov (y.step e) := by
  cases e with
  | commit ts as =>
    refine ⟨?_, ?_, ?_⟩
    · intro h hh
      obtain h1 | ⟨h1, h2⟩ := hv.hint h hh
      · exact .inl h1
      · refine .inr ⟨h1, ?_⟩
        intro c hc
        simp only [Sys.step, List.mem_append, List.mem_singleton] at hc
        obtain hc | rfl := hc
        · exact h2 c hc
        · exact hv.hintLe h hh
    · intro h hh
      have := hv.hintLe h hh
      simp only [Sys.step, List.length_append, List.length_singleton]
      omega
    · intro n hn
      simp only [Sys.step, List.length_append, List.length_singleton] at hn
      have hn : n = y.history.length := by omega
      subst hn
      have hnew : ∃ c ∈ (y.step (.commit ts as)).store.commits, c.version = y.history.length :=
        ⟨⟨y.history.length, ts, as⟩, by simp [Sys.step], rfl⟩
      refine ⟨hnew, ?_⟩
      rcases Nat.eq_zero_or_pos y.history.length with h0 | hpos
      · refine .inl fun w hw => ?_
        have : w = y.history.length := by omega
        rw [this]; exact hnew
      · have hold : ∀ w, (∃ c ∈ y.store.commits, c.version = w) →
            ∃ c ∈ (y.step (.commit ts as)).store.commits, c.version = w := by
          rintro w ⟨c, hc, rfl⟩
          exact ⟨c, by simp [Sys.step, hc], rfl⟩
        obtain ⟨n, hn⟩ : ∃ n, y.history.length = n + 1 := ⟨_, (Nat.sub_add_cancel hpos).symm⟩
        obtain ⟨-, h | ⟨k, hk, hkv, h⟩⟩ := hv.newest n hn
        · refine .inl fun w hw => ?_
          rcases Nat.lt_or_ge n w with hlt | hge
          · have : w = y.history.length := by omega
            rw [this]; exact hnew
          · exact hold w (h w hge)
        · refine .inr ⟨k, hk, by omega, fun w hw hwv => ?_⟩
          rcases Nat.lt_or_ge n w with hlt | hge
          · have : w = y.history.length := by omega
            rw [this]; exact hnew
          · exact hold w (h w hw hge)
  | checkpoint v now v2 hinted =>
    simp only [Sys.step]
    cases h : y.store.createCkpt v now v2 hinted with
    | none => exact hv
    | some st => exact cov_createCkpt hi hv h
  | compact a b t =>
    simp only [Sys.step]
    cases h : y.store.compact a b t with
    | none => exact hv
    | some st =>
      obtain ⟨h1, h2, h3⟩ := compact_same h
      refine ⟨?_, ?_, ?_⟩
      · intro h hh
        simp only [Option.getD_some, h1, h2, h3] at hh ⊢
        exact hv.hint h hh
      · intro h hh
        simp only [Option.getD_some, h3] at hh ⊢
        exact hv.hintLe h hh
      · intro n hn
        simp only [Option.getD_some, h1, Covered, h2] at hn ⊢
        exact hv.newest n hn
  | cleanup l c =>
    simp only [Sys.step]
    cases h : y.store.cleanup l c with
    | none => exact hv
    | some st => exact cov_cleanup hi hv h

theorem cov_run (es : List Ev) : Cov (Sys.run es Sys.init) := by
  unfold Sys.run
  have : ∀ y, Inv y → Cov y → Cov (es.foldl Sys.step y) := by
    induction es with
    | nil => exact fun y _ h => h
    | cons e es ih => exact fun y hi h => ih _ (inv_step hi e) (cov_step hi h e)
  exact this _ inv_init cov_init

/-! ## Loading succeeds -/

theorem replayCommits_ok {s : State} {cs : List Commit} {start stop : Nat}
    (h : start ≤ stop → (cs.map (·.version)).filter (fun v => decide (start ≤ v ∧ v ≤ stop)) =
      List.range' start (stop + 1 - start)) : ∃ s', replayCommits s cs start stop = some s' := by
  unfold replayCommits
  split
  · exact ⟨_, rfl⟩
  · rename_i hle
    rw [if_pos]
    · exact ⟨_, rfl⟩
    · rw [contiguous_iff (Nat.le_refl _) (by omega)]
      exact h (by omega)

/-- The newest checkpoint and the commits after it are listed. -/
theorem segment_exists {y : Sys} (hi : Inv y) (hv : Cov y) {v : Nat}
    (hh : ∀ h ∈ y.store.hint, h.version ≤ v) (hc : Covered y.store v) :
    ∀ w, firstAfter (selectCkpt (y.store.listCkpts (y.store.offset v) v) y.store.hint) ≤ w → w ≤ v →
      w ∈ (y.store.listCommits (y.store.offset v) v).map (·.version) := by
  have hoff : ∀ h ∈ y.store.hint, y.store.offset v = h.version - 1 := by
    intro h hm
    have hm : y.store.hint = some h := hm
    have := hh h hm
    simp only [Store.offset, hm]
    omega
  have hoff' : y.store.hint = none → y.store.offset v = 0 := by
    intro h; simp [Store.offset, h]
  have hsel : ∀ k ∈ y.store.ckpts, k.version ≤ v → y.store.offset v ≤ k.version →
      ∃ c, selectCkpt (y.store.listCkpts (y.store.offset v) v) y.store.hint = some c ∧ k.version ≤ c.version := by
    intro k hk hkv hko
    refine selectCkpt_newest ?_ (mem_listCkpts.mpr ⟨hk, hko, hkv⟩)
    intro h hm x hx hxv
    rw [mem_listCkpts] at hx
    obtain ⟨c, hc1, hc2, hc3⟩ | ⟨g1, -⟩ := hv.hint h hm
    · refine ⟨c, mem_listCkpts.mpr ⟨hc1, ?_, ?_⟩, hc2, hc3⟩
      · rw [hoff h hm]; omega
      · have := hh h hm; omega
    · have := g1 x hx.1; omega
  -- the base we can use
  intro w hw hwv
  rw [List.mem_map]
  have fin : ∀ b, b ≤ w → y.store.offset v ≤ w → (∀ w, b ≤ w → w ≤ v → ∃ c ∈ y.store.commits, c.version = w) →
      ∃ c ∈ y.store.listCommits (y.store.offset v) v, c.version = w := by
    intro b hbw how h
    obtain ⟨c, hc, rfl⟩ := h w hbw hwv
    exact ⟨c, mem_listCommits.mpr ⟨hc, how, hwv⟩, rfl⟩
  cases hhint : y.store.hint with
  | none =>
    have ho := hoff' hhint
    obtain h | ⟨k, hk, hkv, h⟩ := hc
    · exact fin 0 (Nat.zero_le _) (by omega) (fun w _ hwv => h w hwv)
    · obtain ⟨c, hc, hkc⟩ := hsel k hk hkv (by omega)
      rw [hc, firstAfter] at hw
      exact fin (k.version + 1) (by omega) (by omega) (fun w hw hwv => h w (by omega) hwv)
  | some ht =>
    have ho := hoff ht hhint
    have hle := hh ht hhint
    obtain ⟨c, hc1, hc2, hc3⟩ | ⟨g1, g2⟩ := hv.hint ht hhint
    · obtain ⟨x, hx, hxc⟩ := hsel c hc1 (by omega) (by omega)
      rw [hx, firstAfter] at hw
      obtain h | ⟨k, hk, hkv, h⟩ := hc
      · exact fin 0 (Nat.zero_le _) (by omega) (fun w _ hwv => h w hwv)
      · rcases Nat.lt_or_ge k.version (y.store.offset v) with hlt | hge
        · exact fin (k.version + 1) (by omega) (by omega) (fun w hw hwv => h w (by omega) hwv)
        · obtain ⟨x', hx', hkx⟩ := hsel k hk hkv hge
          rw [hx] at hx'
          cases hx'
          exact fin (k.version + 1) (by omega) (by omega) (fun w hw hwv => h w (by omega) hwv)
    · obtain h | ⟨k, hk, hkv, h⟩ := hc
      · obtain ⟨c, hc, hc0⟩ := h 0 (Nat.zero_le _)
        have := g2 c hc
        omega
      · have := g1 k hk
        obtain ⟨x, hx, hkx⟩ := hsel k hk hkv (by omega)
        rw [hx, firstAfter] at hw
        exact fin (k.version + 1) (by omega) (by omega) (fun w hw hwv => h w (by omega) hwv)

theorem load_ok {y : Sys} (hi : Inv y) (hv : Cov y) (hcomps : y.store.comps = []) {v : Nat}
    (hh : ∀ h ∈ y.store.hint, h.version ≤ v) (hc : Covered y.store v)
    (hp : ∃ p, .protocol p ∈ acts (y.history.take (v + 1)))
    (hm : ∃ m, .metadata m ∈ acts (y.history.take (v + 1))) : ∃ t, y.store.load v = some t := by
  have hex := segment_exists hi hv hh hc
  have hsort := listCommits_sorted hi.nodup (y.store.offset v) v
  have hres : ∃ g, y.store.resolve v = some g := by
    unfold Store.resolve
    have hl : y.store.listComps (y.store.offset v) v = [] := by simp [Store.listComps, hcomps]
    dsimp only
    rw [hl, List.filter_nil, resolveComps_nil]
    dsimp only
    generalize firstAfter (selectCkpt (y.store.listCkpts (y.store.offset v) v) y.store.hint) = start at *
    rw [if_pos]
    · exact ⟨_, rfl⟩
    · unfold validate
      split
      · rfl
      · rw [if_pos rfl, contiguous_iff (Nat.le_refl _) (by omega),
          filter_map_version (p := fun x => decide (start ≤ x ∧ x ≤ v)), List.filter_filter]
        simp only [Bool.and_self]
        exact filter_eq_range' hsort hex
  obtain ⟨g, hg⟩ := hres
  have g1 := resolve_comps_nil hcomps hg
  obtain ⟨g2, g3, start, hs, hle, g4⟩ := resolve_spec hg g1
  have hrep : ∃ s, g.replay v = some s := by
    unfold Segment.replay
    rw [if_pos g1]
    apply replayCommits_ok
    intro hfv
    have hfirst : g.first v = start := first_eq hs hle g1 g3 g4
    rw [hfirst, g4]
    rw [List.filter_eq_self]
    intro x hx
    rw [List.mem_range'_1] at hx
    simp
    omega
  obtain ⟨s, hs'⟩ := hrep
  obtain ⟨-, ha⟩ := replay_spec hi hg g1 hs'
  obtain ⟨p, hp⟩ := hp
  obtain ⟨m, hm⟩ := hm
  obtain ⟨_, hp⟩ := lastIs_exists (P := IsProtocol) ⟨_, hp, p, rfl⟩
  obtain ⟨_, hm⟩ := lastIs_exists (P := IsMetadata) ⟨_, hm, m, rfl⟩
  obtain ⟨p, rfl⟩ : IsProtocol _ := by obtain ⟨_, _, _, h, _⟩ := hp; exact h
  obtain ⟨m, rfl⟩ : IsMetadata _ := by obtain ⟨_, _, _, h, _⟩ := hm; exact h
  unfold Store.load
  rw [hg]
  dsimp only
  rw [hs']
  dsimp only
  unfold State.table
  rw [(ha.protocol p).mpr hp, (ha.metadata m).mpr hm]
  exact ⟨_, rfl⟩

end Verif.Delta.Log
