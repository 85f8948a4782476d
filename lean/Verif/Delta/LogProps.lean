import Mathlib.Tactic.SplitIfs
import Verif.Delta.LogLemmas

/-! # Properties of the Delta log: C37 -/

namespace Verif.Delta.Log

open Spec

namespace Spec

/-- `t` is the table that the actions `as` describe: the last action about a thing decides. -/
structure Contents (t : Table) (as : List Action) : Prop where
  protocol : LastIs IsProtocol as (.protocol t.protocol)
  metadata : LastIs IsMetadata as (.metadata t.metadata)
  domains : ∀ d v, (d, v) ∈ t.domains ↔ LastIs (IsDomain d) as (.domain d (some v))
  files : ∀ k f, (k, f) ∈ t.adds ↔ LastIs (IsFile k) as (.add k f)
  domainsOnce : (t.domains.map (·.1)).Nodup
  filesOnce : (t.adds.map (·.1)).Nodup
  txnsOnce : (t.txns.map (·.1)).Nodup
  /-- application transactions may expire, but are never wrong -/
  txns : ∀ a x, (a, x) ∈ t.txns → LastIs (IsTxn a) as (.txn a x)
  /-- transactions without a time never expire -/
  txnsKept : ∀ a x, LastIs (IsTxn a) as (.txn a x) → x.updated = none → (a, x) ∈ t.txns
  tombstones : ∀ k d, (k, d) ∈ t.removes → LastIs (IsFile k) as (.remove k d)
  tombstonesKept : ∀ k, LastIs (IsFile k) as (.remove k none) → (k, none) ∈ t.removes

end Spec

theorem table_spec {s : State} {t : Table} {as : List Action} (hw : WF s) (h : Agree s as)
    (ht : s.table = some t) : Contents t as := by
  unfold State.table at ht
  split at ht
  · rename_i p m hp hm
    cases ht
    exact ⟨(h.protocol p).mp hp, (h.metadata m).mp hm, h.domains, h.adds, hw.domains, hw.adds, hw.txns,
      h.txns, h.txnsKept, h.removes, h.removesKept⟩
  · cases ht

theorem resolveComps_nil (cs : List Commit) : resolveComps cs [] = (cs, []) := by
  simp [resolveComps, pickComps]

theorem mem_of_listCkpts {y : Sys} {off max : Nat} {c : Ckpt}
    (h : selectCkpt (y.store.listCkpts off max) y.store.hint = some c) :
    c ∈ y.store.ckpts ∧ off ≤ c.version ∧ c.version ≤ max :=
  mem_listCkpts.mp (selectCkpt_mem h)

/-- What a segment consists of. -/
theorem resolve_parts {y : Sys} {v : Nat} {g : Segment} (h : y.store.resolve v = some g) :
    (∀ c, g.ckpt = some c → c ∈ y.store.ckpts ∧ c.version ≤ v) ∧ firstAfter g.ckpt ≤ v + 1 ∧
    g.ckpt = selectCkpt (y.store.listCkpts (y.store.offset v) v) y.store.hint ∧
    (g.commits, g.comps) = resolveComps
      ((y.store.listCommits (y.store.offset v) v).filter fun c => firstAfter g.ckpt ≤ c.version ∧ c.version ≤ v)
      ((y.store.listComps (y.store.offset v) v).filter fun c => firstAfter g.ckpt ≤ c.start ∧ c.stop ≤ v) ∧
    validate g.commits g.comps (firstAfter g.ckpt) v = true := by
  unfold Store.resolve at h
  dsimp only at h
  generalize hk : selectCkpt (y.store.listCkpts (y.store.offset v) v) y.store.hint = k at h
  have hkm : ∀ c, k = some c → c ∈ y.store.ckpts ∧ c.version ≤ v := by
    rintro c rfl
    obtain ⟨h1, -, h2⟩ := mem_of_listCkpts hk
    exact ⟨h1, h2⟩
  have hle : firstAfter k ≤ v + 1 := by
    cases hkc : k with
    | none => exact Nat.zero_le _
    | some c => have := (hkm c hkc).2; simp only [firstAfter]; omega
  split_ifs at h with hv
  cases h
  exact ⟨hkm, hle, rfl, rfl, hv⟩

theorem resolve_commit_mem {y : Sys} {v : Nat} {g : Segment} (h : y.store.resolve v = some g) {c : Commit}
    (hc : c ∈ g.commits) : c ∈ y.store.commits ∧ firstAfter g.ckpt ≤ c.version ∧ c.version ≤ v := by
  obtain ⟨-, -, -, he, -⟩ := resolve_parts h
  have h1 : g.commits = _ := congrArg Prod.fst he
  rw [h1] at hc
  unfold resolveComps at hc
  dsimp only at hc
  have := List.mem_filter.mp (List.mem_of_mem_filter hc)
  refine ⟨(mem_listCommits.mp this.1).1, ?_⟩
  simpa using this.2

/-- A segment without compactions. -/
theorem resolve_spec {y : Sys} {v : Nat} {g : Segment} (h : y.store.resolve v = some g) (g1 : g.comps = []) :
    (∀ c ∈ g.commits, c ∈ y.store.commits) ∧
    (∀ c, g.ckpt = some c → c ∈ y.store.ckpts ∧ c.version ≤ v) ∧
    ∃ start, start = firstAfter g.ckpt ∧ start ≤ v + 1 ∧
      g.commits.map (·.version) = List.range' start (v + 1 - start) := by
  obtain ⟨hkm, hle, -, -, hv⟩ := resolve_parts h
  have hm := fun c hc => resolve_commit_mem h (c := c) hc
  rw [g1] at hv
  generalize firstAfter g.ckpt = start at *
  refine ⟨fun c hc => (hm c hc).1, hkm, start, rfl, hle, ?_⟩
  unfold validate at hv
  split at hv
  · have : start = v + 1 := by omega
    subst this
    cases hg : g.commits with
    | nil => simp
    | cons c cs =>
      have := hm c (by simp [hg])
      omega
  · rw [if_pos rfl, contiguous_iff (Nat.le_refl _) hle] at hv
    rw [← hv, eq_comm, List.filter_eq_self]
    intro x hx
    obtain ⟨c, hc, rfl⟩ := List.mem_map.mp hx
    have := hm c hc
    simp
    omega

/-- The segment of a log without compactions has none. -/
theorem resolve_comps_nil {y : Sys} (hc : y.store.comps = []) {v : Nat} {g : Segment}
    (h : y.store.resolve v = some g) : g.comps = [] := by
  obtain ⟨-, -, -, he, -⟩ := resolve_parts h
  have hl : y.store.listComps (y.store.offset v) v = [] := by simp [Store.listComps, hc]
  rw [hl, List.filter_nil, resolveComps_nil] at he
  exact congrArg Prod.snd he

theorem first_eq {v start : Nat} {g : Segment} {cks : List Ckpt} (hs : start = firstAfter g.ckpt)
    (hle : start ≤ v + 1) (g1 : g.comps = []) (g3 : ∀ c, g.ckpt = some c → c ∈ cks ∧ c.version ≤ v)
    (g4 : g.commits.map (·.version) = List.range' start (v + 1 - start)) : g.first v = start := by
  unfold Segment.first
  rw [hs, g1]
  cases hk : g.ckpt with
  | none => rfl
  | some c =>
    rw [hk] at hs
    simp only [firstAfter] at hs ⊢
    cases hcs : g.commits with
    | nil =>
      rw [hcs] at g4
      have := congrArg List.length g4
      simp at this
      dsimp only
      have := (g3 c hk).2
      omega
    | cons x xs =>
      rw [hcs] at g4
      obtain ⟨n, hn⟩ : ∃ n, v + 1 - start = n + 1 := ⟨v + 1 - start - 1, by
        have := congrArg List.length g4
        simp at this
        omega⟩
      rw [hn, List.range'_succ] at g4
      have := (List.cons.inj g4).1
      dsimp only at this ⊢
      omega

theorem base_spec {y : Sys} (hi : Inv y) {g : Segment} (h : ∀ c, g.ckpt = some c → c ∈ y.store.ckpts) :
    WF g.base ∧ Agree g.base (acts (y.history.take (firstAfter g.ckpt))) := by
  unfold Segment.base
  cases hk : g.ckpt with
  | none => exact ⟨wf_empty, by simpa [acts, firstAfter] using agree_empty⟩
  | some c => exact ⟨wf_applyAll wf_empty _, (hi.ckpts c (h c hk)).2⟩

theorem replay_spec {y : Sys} (hi : Inv y) {v : Nat} {g : Segment} {s : State}
    (hg : y.store.resolve v = some g) (g1 : g.comps = []) (hr : g.replay v = some s) :
    WF s ∧ Agree s (acts (y.history.take (v + 1))) := by
  obtain ⟨g2, g3, start, hs, hle, g4⟩ := resolve_spec hg g1
  unfold Segment.replay at hr
  rw [if_pos g1] at hr
  have hf : Faithful y.history g.commits := fun c hc => hi.commits c (g2 c hc)
  rw [first_eq hs hle g1 g3 g4] at hr
  have hb := base_spec hi (fun c hc => (g3 c hc).1)
  rw [← hs] at hb
  obtain ⟨r1, r2, -⟩ := replayCommits_spec hf hle hb.1 hb.2 hr
  exact ⟨r1, r2⟩

/-- Only versions that exist can be resolved. -/
theorem resolve_lt {y : Sys} (hi : Inv y) {v : Nat} {g : Segment}
    (hg : y.store.resolve v = some g) (g1 : g.comps = []) : v < y.history.length := by
  obtain ⟨g2, g3, start, hs, hle, g4⟩ := resolve_spec hg g1
  rcases Nat.lt_or_ge v start with hlt | hge
  · cases hk : g.ckpt with
    | none => rw [hk] at hs; simp [firstAfter] at hs; omega
    | some c =>
      rw [hk] at hs
      simp only [firstAfter] at hs
      have := (hi.ckpts c (g3 c hk).1).1
      omega
  · have hm : v ∈ List.range' start (v + 1 - start) := by rw [List.mem_range'_1]; omega
    rw [← g4, List.mem_map] at hm
    obtain ⟨c, hc, rfl⟩ := hm
    exact (List.getElem?_eq_some_iff.mp (hi.commits c (g2 c hc))).1

theorem load_spec {y : Sys} (hi : Inv y) (hc : y.store.comps = []) {v : Nat} {t : Table}
    (h : y.store.load v = some t) :
    v < y.history.length ∧ Contents t (acts (y.history.take (v + 1))) := by
  unfold Store.load at h
  split at h
  · cases h
  · rename_i g hg
    split at h
    · cases h
    · rename_i s hr
      have g1 := resolve_comps_nil hc hg
      obtain ⟨r1, r2⟩ := replay_spec hi hg g1 hr
      exact ⟨resolve_lt hi hg g1, table_spec r1 r2 h⟩

theorem createCkpt_comps {st st' : Store} {v : Nat} {now : Int} {v2 : Option Nat} {hinted : Bool}
    (h : st.createCkpt v now v2 hinted = some st') : st'.comps = st.comps ∧ st'.commits = st.commits := by
  unfold Store.createCkpt at h
  split at h
  · cases h
  · split at h
    · cases h
    · cases h
      split <;> exact ⟨rfl, rfl⟩

theorem copyClassic_comps {st st' : Store} {c : Ckpt} (h : st.copyClassic c = some st') :
    st'.comps = st.comps ∧ st'.commits = st.commits ∧ st'.hint = st.hint := by
  unfold Store.copyClassic at h
  split at h
  · cases h
  · cases h; exact ⟨rfl, rfl, rfl⟩

theorem ensureClassic_comps {st st' : Store} {v : Nat} (h : st.ensureClassic v = some st') :
    st'.comps = st.comps ∧ st'.commits = st.commits ∧ st'.hint = st.hint := by
  obtain rfl | ⟨c, -, -, h⟩ := ensureClassic_cases h
  · exact ⟨rfl, rfl, rfl⟩
  · exact copyClassic_comps h

theorem cleanup_comps {st st' : Store} {l : Nat} {c : Int} (hc : st.comps = [])
    (h : st.cleanup l c = some st') : st'.comps = [] := by
  unfold Store.cleanup at h
  split at h
  · cases h; exact hc
  · split at h
    · cases h
    · rename_i st'' hst
      cases h
      simp [Store.deleteBefore, (ensureClassic_comps hst).1, hc]

/-- No log compaction in the history. -/
def NoCompact (es : List Ev) : Prop := ∀ a b t, Ev.compact a b t ∉ es

theorem comps_run {es : List Ev} (hes : NoCompact es) : (Sys.run es Sys.init).store.comps = [] := by
  unfold Sys.run
  have : ∀ y : Sys, y.store.comps = [] → (es.foldl Sys.step y).store.comps = [] := by
    induction es with
    | nil => exact fun y h => h
    | cons e es ih =>
      intro y hy
      refine ih (fun a b t h => hes a b t (by simp [h])) _ ?_
      cases e with
      | commit ts as => exact hy
      | checkpoint v now v2 hinted =>
        simp only [Sys.step]
        cases h : y.store.createCkpt v now v2 hinted with
        | none => exact hy
        | some st => exact (createCkpt_comps h).1.trans hy
      | compact a b t => exact absurd (List.mem_cons_self ..) (hes a b t)
      | cleanup l c =>
        simp only [Sys.step]
        cases h : y.store.cleanup l c with
        | none => exact hy
        | some st => exact cleanup_comps hy h
  exact this _ rfl

/-- **C37.** Whatever commits, checkpoints and clean-ups happened, a version that can be loaded is
the one its commits describe. -/
theorem C37_load_equals_history (es : List Ev) (hes : NoCompact es) (v : Nat) (t : Table)
    (h : (Sys.run es Sys.init).store.load v = some t) :
    v < (Sys.run es Sys.init).history.length ∧
      Contents t ((((Sys.run es Sys.init).history.take (v + 1)).map (·.2)).flatten) := by
  have := load_spec (inv_run es) (comps_run hes) h
  rw [acts, List.flatMap_def] at this
  exact this

/-! A history: a commit creates the table with a file, the next replaces the file, then a
checkpoint is written when the tombstone has expired, then a commit adds a file and old log files are
deleted. -/

def exCreate : List Action := [.protocol 1, .metadata ⟨7, 1000, 2000⟩, .add ⟨1, none⟩ 10, .txn 5 ⟨1, none⟩]
def exReplace : List Action := [.remove ⟨1, none⟩ (some 20), .add ⟨2, none⟩ 11, .domain 3 (some 4)]
def exAppend : List Action := [.add ⟨1, none⟩ 12, .domain 3 none]

def exHistory : List Ev :=
  [.commit 10 exCreate, .commit 20 exReplace, .checkpoint 1 5000 none true, .commit 30 exAppend, .cleanup 2 25]

example : NoCompact exHistory := by
  intro a b t; simp [exHistory]

example : (Sys.run exHistory Sys.init).store.commits.map (·.version) = [1, 2] := by decide

example : (Sys.run exHistory Sys.init).store.load 2 =
    some ⟨1, ⟨7, 1000, 2000⟩, [(5, ⟨1, none⟩)], [], [(⟨1, none⟩, 12), (⟨2, none⟩, 11)], []⟩ := by decide

end Verif.Delta.Log
