import Mathlib.Data.List.Induction
import Mathlib.Tactic.SplitIfs
import Verif.Delta.Commit

/-! # Invariants of the Delta commit protocol -/

namespace Verif.Delta.Commit

open Verif.Delta.Log (Key)

/-! ## The store -/

/-- The files are versions 0, 1, 2, … in this order. -/
def Tidy (fs : Files) : Prop := fs.map (·.1) = List.range fs.length

theorem tidy_get {fs : Files} (h : Tidy fs) (v : Nat) : fs.get v = (fs[v]?).map (·.2) := by
  have hidx : ∀ (i : Nat) (x : Nat × Commit), fs[i]? = some x → x.1 = i := by
    intro i x hx
    have := congrArg (fun l => l[i]?) h
    simp only [List.getElem?_map, hx, Option.map_some] at this
    have hlt : i < fs.length := (List.getElem?_eq_some_iff.mp hx).1
    rw [List.getElem?_range hlt] at this
    exact Option.some.inj this
  unfold Files.get
  congr 1
  cases hv : fs[v]? with
  | none =>
    rw [List.find?_eq_none]
    intro x hx hxv
    obtain ⟨i, hi⟩ := List.mem_iff_getElem?.mp hx
    have h1 := hidx i x hi
    have h2 : x.1 = v := by simpa using hxv
    rw [← h2, h1, hi] at hv
    cases hv
  | some x =>
    rw [List.find?_eq_some_iff_getElem]
    have hlt := (List.getElem?_eq_some_iff.mp hv)
    refine ⟨by simpa using hidx v x hv, v, hlt.1, hlt.2, ?_⟩
    intro j hj
    have hlt1 : v < fs.length := hlt.1
    have := hidx j _ (List.getElem?_eq_getElem (by omega))
    simp [this]
    omega

theorem latest_snoc (fs : Files) (x : Nat × Commit) :
    Files.latest (fs ++ [x]) = some (match fs.latest with | some cur => max cur x.1 | none => x.1) := by
  unfold Files.latest
  rw [List.foldl_append]
  rfl

theorem tidy_snoc {fs : Files} {x : Nat × Commit} : Tidy (fs ++ [x]) ↔ Tidy fs ∧ x.1 = fs.length := by
  unfold Tidy
  rw [List.map_append, List.length_append, List.length_singleton, List.range_succ]
  constructor
  · intro h
    have := List.append_inj' h (by simp)
    simpa using this
  · rintro ⟨h1, h2⟩
    simp [h1, h2]

theorem tidy_latest {fs : Files} (h : Tidy fs) : fs.latest = if fs.length = 0 then none else some (fs.length - 1) := by
  induction fs using List.reverseRecOn with
  | nil => rfl
  | append_singleton fs x ih =>
    obtain ⟨h1, h2⟩ := tidy_snoc.mp h
    rw [latest_snoc, ih h1]
    split_ifs with h0 h0 <;> simp at * <;> omega

theorem tidy_put {fs fs' : Files} {v : Nat} {c : Commit} (h : Tidy fs) (hv : v ≤ fs.length)
    (hp : fs.put v c = some fs') : v = fs.length ∧ fs' = fs ++ [(v, c)] := by
  unfold Files.put at hp
  rw [tidy_get h] at hp
  cases hg : fs[v]? with
  | some x => simp [hg] at hp
  | none =>
    simp [hg] at hp
    rw [List.getElem?_eq_none_iff] at hg
    exact ⟨by omega, hp.symm⟩

theorem get_snoc {fs : Files} {x : Nat × Commit} (h : Tidy (fs ++ [x])) {v : Nat} {c : Commit}
    (hg : fs.get v = some c) : Files.get (fs ++ [x]) v = some c := by
  rw [tidy_get (tidy_snoc.mp h).1] at hg
  rw [tidy_get h]
  cases hv : fs[v]? with
  | none => rw [hv] at hg; cases hg
  | some y =>
    rw [List.getElem?_append_left (List.getElem?_eq_some_iff.mp hv).1, hv]
    rw [hv] at hg
    exact hg

theorem actsTo_eq {fs : Files} (h : Tidy fs) : ∀ v, v < fs.length →
    fs.actsTo v = some ((fs.take (v + 1)).flatMap (·.2.acts))
  | 0, hv => by
    unfold Files.actsTo
    rw [tidy_get h, List.getElem?_eq_getElem hv]
    cases fs with
    | nil => cases hv
    | cons x fs => simp
  | v + 1, hv => by
    unfold Files.actsTo
    rw [actsTo_eq h v (by omega), tidy_get h, List.getElem?_eq_getElem hv, List.take_succ_eq_append_getElem hv, List.flatMap_append]
    simp only [Option.map_some, List.flatMap_cons, List.flatMap_nil, List.append_nil]

theorem actsTo_lt {fs : Files} (h : Tidy fs) {v : Nat} {as : List Act} (ha : fs.actsTo v = some as) : v < fs.length := by
  by_contra hv
  cases v with
  | zero =>
    unfold Files.actsTo at ha
    rw [tidy_get h, List.getElem?_eq_none (by omega)] at ha
    cases ha
  | succ v =>
    unfold Files.actsTo at ha
    rw [tidy_get h, List.getElem?_eq_none (by omega)] at ha
    cases hx : fs.actsTo v <;> simp [hx] at ha

theorem snap_lt {fs : Files} (h : Tidy fs) {b : Bool} {v : Nat} {s : Snap} (hs : fs.snap b v = some s) :
    v < fs.length := by
  unfold Files.snap at hs
  split at hs
  · cases hs
  · rename_i as ha
    exact actsTo_lt h ha

theorem snap_version {fs : Files} {b : Bool} {v : Nat} {s : Snap} (hs : fs.snap b v = some s) : s.version = v := by
  unfold Files.snap at hs
  split at hs
  · cases hs
  · split at hs
    · cases hs; rfl
    · cases hs

theorem snap_snoc {fs : Files} {x : Nat × Commit} (h : Tidy (fs ++ [x])) {b : Bool} {v : Nat} {s : Snap}
    (hs : fs.snap b v = some s) : Files.snap (fs ++ [x]) b v = some s := by
  have h1 := (tidy_snoc.mp h).1
  have hv := snap_lt h1 hs
  rw [← hs]
  unfold Files.snap
  rw [actsTo_eq h1 v hv, actsTo_eq h v (by simp; omega), List.take_append_of_le_length (by omega)]

/-! ## Replay -/

theorem replay_protocol (as : List Act) (r : Replay) :
    (r.applyAll as).protocol = (protocolsOf as).getLast?.or r.protocol := by
  induction as generalizing r with
  | nil => simp [Replay.applyAll, protocolsOf]
  | cons a as ih =>
    change (Replay.applyAll (r.apply a) as).protocol = _
    rw [ih]
    cases a <;> simp [Replay.apply, protocolsOf, List.getLast?_cons]

theorem replay_metadata (as : List Act) (r : Replay) :
    (r.applyAll as).metadata = (metadatasOf as).getLast?.or r.metadata := by
  induction as generalizing r with
  | nil => simp [Replay.applyAll, metadatasOf]
  | cons a as ih =>
    change (Replay.applyAll (r.apply a) as).metadata = _
    rw [ih]
    cases a <;> simp [Replay.apply, metadatasOf, List.getLast?_cons]

theorem applyAll_append (r : Replay) (as bs : List Act) : r.applyAll (as ++ bs) = (r.applyAll as).applyAll bs :=
  List.foldl_append

theorem protocolsOf_append (as bs : List Act) : protocolsOf (as ++ bs) = protocolsOf as ++ protocolsOf bs :=
  List.filterMap_append
theorem metadatasOf_append (as bs : List Act) : metadatasOf (as ++ bs) = metadatasOf as ++ metadatasOf bs :=
  List.filterMap_append

/-- The actions of the versions up to `v`. -/
def actsUpTo (fs : Files) (v : Nat) : List Act := (fs.take (v + 1)).flatMap (·.2.acts)

theorem snap_spec {fs : Files} (h : Tidy fs) {b : Bool} {v : Nat} {s : Snap} (hs : fs.snap b v = some s) :
    v < fs.length ∧ s.version = v ∧ (protocolsOf (actsUpTo fs v)).getLast? = some s.protocol ∧
    (metadatasOf (actsUpTo fs v)).getLast? = some s.metadata ∧
    s.adds = if b then (Replay.empty.applyAll (actsUpTo fs v)).adds else [] := by
  have hv := snap_lt h hs
  have e1 := replay_protocol (actsUpTo fs v) Replay.empty
  have e2 := replay_metadata (actsUpTo fs v) Replay.empty
  unfold Files.snap at hs
  rw [actsTo_eq h v hv] at hs
  change (match Replay.empty.applyAll (actsUpTo fs v) with
    | ⟨some p, some m, adds⟩ => some (⟨v, p, m, if b then adds else []⟩ : Snap)
    | _ => none) = some s at hs
  generalize Replay.empty.applyAll (actsUpTo fs v) = r at *
  obtain ⟨p, m, adds⟩ := r
  cases p <;> cases m <;> simp at hs
  subst hs
  simp only [Replay.empty, Option.or_none] at e1 e2
  exact ⟨hv, rfl, e1.symm, e2.symm, rfl⟩

theorem actsUpTo_succ {fs : Files} {v : Nat} {x : Nat × Commit} (hx : fs[v + 1]? = some x) :
    actsUpTo fs (v + 1) = actsUpTo fs v ++ x.2.acts := by
  obtain ⟨hlt, hval⟩ := List.getElem?_eq_some_iff.mp hx
  unfold actsUpTo
  rw [List.take_succ_eq_append_getElem hlt, List.flatMap_append, hval]
  simp

/-- Commits without protocol and metadata do not change them. -/
theorem quiet {fs : Files} (h : Tidy fs) {v : Nat} : ∀ n, (∀ u, v < u → u ≤ v + n →
      ∃ c, fs.get u = some c ∧ protocolsOf c.acts = [] ∧ metadatasOf c.acts = []) →
    protocolsOf (actsUpTo fs (v + n)) = protocolsOf (actsUpTo fs v) ∧
    metadatasOf (actsUpTo fs (v + n)) = metadatasOf (actsUpTo fs v)
  | 0, _ => ⟨rfl, rfl⟩
  | n + 1, hq => by
    obtain ⟨i1, i2⟩ := quiet h n fun u h1 h2 => hq u h1 (by omega)
    obtain ⟨c, hc, hp, hm⟩ := hq (v + n + 1) (by omega) (by omega)
    rw [tidy_get h] at hc
    cases hx : fs[v + n + 1]? with
    | none => rw [hx] at hc; cases hc
    | some x =>
      rw [hx] at hc
      cases hc
      rw [← Nat.add_assoc, actsUpTo_succ hx, protocolsOf_append, metadatasOf_append, hp, hm, i1, i2]
      simp

theorem snap_same {fs : Files} (h : Tidy fs) {b b' : Bool} {v v' : Nat} {s s' : Snap} (hs : fs.snap b v = some s)
    (hs' : fs.snap b' v' = some s') (hv : v ≤ v') (hq : ∀ u, v < u → u ≤ v' →
      ∃ c, fs.get u = some c ∧ protocolsOf c.acts = [] ∧ metadatasOf c.acts = []) :
    s'.protocol = s.protocol ∧ s'.metadata = s.metadata := by
  obtain ⟨n, rfl⟩ := Nat.exists_eq_add_of_le hv
  obtain ⟨-, -, p1, m1, -⟩ := snap_spec h hs
  obtain ⟨-, -, p2, m2, -⟩ := snap_spec h hs'
  obtain ⟨e1, e2⟩ := quiet h n hq
  rw [e1, p1] at p2
  rw [e2, m1] at m2
  exact ⟨(Option.some.inj p2).symm, (Option.some.inj m2).symm⟩

/-! ## Conflicts -/

theorem checkRange_spec {fs : Files} {s : Snap} {acts : List Act} {op : Op} : ∀ n v,
    checkRange fs s acts op n v = true ↔ ∀ u, v ≤ u → u < v + n → ∃ c, fs.get u = some c ∧ noConflict s acts op c = true
  | 0, v => by simp only [checkRange, true_iff]; intro u h1 h2; omega
  | n + 1, v => by
    unfold checkRange
    cases hg : fs.get v with
    | none =>
      simp only [Bool.false_eq_true, false_iff]
      intro h
      obtain ⟨c, hc, -⟩ := h v (Nat.le_refl _) (by omega)
      rw [hg] at hc
      cases hc
    | some win =>
      simp only [Bool.and_eq_true, checkRange_spec n (v + 1)]
      constructor
      · rintro ⟨h1, h2⟩ u hu hu'
        by_cases e : u = v
        · subst e; exact ⟨win, hg, h1⟩
        · exact h2 u (by omega) (by omega)
      · intro h
        refine ⟨?_, fun u hu hu' => h u (by omega) (by omega)⟩
        obtain ⟨c, hc, hn⟩ := h v (Nat.le_refl _) (by omega)
        rw [hg] at hc
        cases hc
        exact hn

theorem noConflict_plain {s : Snap} {acts : List Act} {op : Op} {win : Commit} (h : noConflict s acts op win = true) :
    (protocolsOf acts = [] → protocolsOf win.acts = []) ∧ (metadatasOf acts = [] → metadatasOf win.acts = []) ∧
    (∀ a ∈ txnsOf acts, a ∉ txnsOf win.acts) ∧ (∀ d ∈ domainsOf acts, d ∉ domainsOf win.acts) ∧
    (∀ k ∈ removesOf acts, k ∉ removesOf win.acts) ∧ (∀ k ∈ s.adds, k ∉ removesOf win.acts) := by
  unfold noConflict at h
  simp only [Bool.and_eq_true] at h
  obtain ⟨⟨⟨⟨⟨⟨h1, h2⟩, h3⟩, h4⟩, h5⟩, h6⟩, h7⟩ := h
  refine ⟨?_, ?_, ?_, ?_, ?_, ?_⟩
  · intro e
    unfold protocolOk at h1
    rw [e] at h1
    dsimp only at h1
    split_ifs at h1 with a b
    · exact b
    · simp at h1
  · intro e
    unfold metadataOk at h2
    rw [e] at h2
    dsimp only at h2
    split_ifs at h2 with b
    · exact b
    · simp at h2
  · simpa [txnsOk] using h7
  · simpa [domainsOk] using h3
  · simpa [deletedTwiceOk] using h6
  · unfold deletedReadOk at h5
    rw [Bool.and_eq_true] at h5
    intro k hk hk'
    have := h5.1
    simp at this
    exact this k hk' hk

/-! ## Writers -/

/-- What holds of a writer between attempts, apart from its phase. -/
structure Core (fs : Files) (w : Writer) : Prop where
  snap : ∀ s, w.snap = some s → fs.snap w.files s.version = some s
  plain : ∀ s0, w.table = some s0 → fs.snap w.files s0.version = some s0 ∧ w.acts = w.orig ∧
    w.blind = isBlindAppend w.orig w.op ∧
    ∃ s, w.snap = some s ∧ s0.version ≤ s.version ∧ (w.retries = 0 → s = s0) ∧
      ∀ u, s0.version < u → u ≤ s.version →
        ∃ c s', fs.get u = some c ∧ noConflict s' w.orig w.op c = true
  fresh : w.table = none → w.snap = none → w.acts = w.orig ∧ w.blind = isBlindAppend w.orig w.op
  adopted : w.table = none → ∀ s, w.snap = some s → w.compatible s = true ∧
    w.acts = w.orig.filter (fun a => !isInit a)

theorem core_phase {fs : Files} {w : Writer} (h : Core fs w) (p : Phase) : Core fs { w with phase := p } :=
  ⟨h.snap, h.plain, h.fresh, h.adopted⟩

theorem core_snoc {fs : Files} {x : Nat × Commit} {w : Writer} (ht : Tidy (fs ++ [x])) (h : Core fs w) :
    Core (fs ++ [x]) w := by
  refine ⟨fun s hs => snap_snoc ht (h.snap s hs), ?_, h.fresh, h.adopted⟩
  intro s0 h0
  obtain ⟨h1, h2, h3, s, h4, h5, h6, h7⟩ := h.plain s0 h0
  refine ⟨snap_snoc ht h1, h2, h3, s, h4, h5, h6, ?_⟩
  intro u hu hu'
  obtain ⟨c, s', hc, hn⟩ := h7 u hu hu'
  exact ⟨c, s', get_snoc ht hc, hn⟩

theorem core_new {fs : Files} {op : Op} {r : Nat} {table : Option Snap} {files : Bool} {acts : List Act}
    (h : ∀ s, table = some s → fs.snap files s.version = some s) : Core fs (Writer.new op r table files acts) := by
  refine ⟨h, ?_, fun _ _ => ⟨rfl, rfl⟩, ?_⟩
  · intro s0 h0
    refine ⟨h s0 h0, rfl, rfl, s0, h0, Nat.le_refl _, fun _ => rfl, ?_⟩
    intro u h1 h2
    omega
  · intro h1 s h2
    change table = none at h1
    change table = some s at h2
    rw [h1] at h2
    cases h2

theorem strip_filter (w : Writer) : w.strip.acts = w.acts.filter (fun a => !isInit a) := by
  unfold Writer.strip
  split_ifs with h
  · rfl
  · symm
    rw [List.filter_eq_self]
    intro a ha
    simp at h
    simp [h a ha]

theorem strip_same (w : Writer) : w.strip.op = w.op ∧ w.strip.maxRetries = w.maxRetries ∧ w.strip.table = w.table ∧
    w.strip.orig = w.orig ∧ w.strip.files = w.files ∧ w.strip.snap = w.snap ∧ w.strip.phase = w.phase := by
  unfold Writer.strip
  split_ifs <;> exact ⟨rfl, rfl, rfl, rfl, rfl, rfl, rfl⟩

theorem compatible_congr {w w' : Writer} (h : w'.orig = w.orig) (s : Snap) : w'.compatible s = w.compatible s := by
  unfold Writer.compatible
  rw [h]

theorem compatible_snap {w : Writer} {s s' : Snap} (hp : s'.protocol = s.protocol) (hm : s'.metadata = s.metadata) :
    w.compatible s' = w.compatible s := by
  unfold Writer.compatible
  rw [hp, hm]

theorem init_nil (as : List Act) : protocolsOf (as.filter fun a => !isInit a) = [] ∧
    metadatasOf (as.filter fun a => !isInit a) = [] := by
  constructor
  · unfold protocolsOf
    rw [List.filterMap_eq_nil_iff]
    intro a ha
    have := (List.mem_filter.mp ha).2
    cases a <;> simp_all [isInit]
  · unfold metadatasOf
    rw [List.filterMap_eq_nil_iff]
    intro a ha
    have := (List.mem_filter.mp ha).2
    cases a <;> simp_all [isInit]

/-- The fields of a writer that never change. -/
def SameJob (w w' : Writer) : Prop := w'.op = w.op ∧ w'.maxRetries = w.maxRetries ∧ w'.table = w.table ∧ w'.orig = w.orig

theorem convert_spec {fs : Files} (ht : Tidy fs) {w w' : Writer} (h : Core fs w) {latest : Nat}
    (hl : latest + 1 = fs.length) (he : (w.adopt fs latest).bind Writer.convert = some w') :
    Core fs w' ∧ SameJob w w' ∧ w'.phase = w.phase ∧ ∃ s, w'.snap = some s ∧ s.version ≤ latest := by
  unfold Writer.adopt at he
  cases hs : w.snap with
  | some s =>
    simp only [hs, Option.bind_some] at he
    have hv := snap_lt ht (h.snap s hs)
    unfold Writer.convert at he
    simp only [hs] at he
    cases htab : w.table with
    | some s0 =>
      simp only [Writer.creator, htab, Option.isNone_some, Bool.false_eq_true, if_false, Option.some.injEq] at he
      subst he
      exact ⟨h, ⟨rfl, rfl, rfl, rfl⟩, rfl, s, hs, by omega⟩
    | none =>
      obtain ⟨h1, h2⟩ := h.adopted htab s hs
      simp only [Writer.creator, htab, Option.isNone_none, if_true, h1, Option.some.injEq] at he
      have : w.strip = w := by
        unfold Writer.strip
        rw [if_neg]
        rw [h2]
        simp
      rw [this] at he
      subst he
      exact ⟨h, ⟨rfl, rfl, rfl, rfl⟩, rfl, s, hs, by omega⟩
  | none =>
    simp only [hs] at he
    have htab : w.table = none := by
      cases ht' : w.table with
      | none => rfl
      | some s0 =>
        obtain ⟨-, -, -, s, h4, -⟩ := h.plain s0 ht'
        rw [hs] at h4
        cases h4
    cases hl' : fs.snap true latest with
    | none => simp [hl'] at he
    | some s =>
      simp only [hl', Option.bind_some] at he
      unfold Writer.convert at he
      simp only [Writer.creator, htab, Option.isNone_none, if_true] at he
      split_ifs at he with hcompat
      cases he
      obtain ⟨e1, e2, e3, e4, e5, e6, e7⟩ := strip_same { w with table := none, files := true, snap := some s }
      have hver := snap_version hl'
      refine ⟨⟨?_, ?_, ?_, ?_⟩, ⟨e1, e2, e3.trans htab.symm, e4⟩, e7, s, e6, by omega⟩
      · intro s' hs'
        rw [e6] at hs'
        cases hs'
        rw [e5, hver]
        exact hl'
      · intro s0 h0
        rw [e3] at h0
        cases h0
      · intro _ h0
        rw [e6] at h0
        cases h0
      · intro _ s' hs'
        rw [e6] at hs'
        cases hs'
        refine ⟨(compatible_congr e4 s).trans hcompat, ?_⟩
        rw [strip_filter, e4]
        change List.filter _ w.acts = List.filter _ w.orig
        rw [(h.fresh htab hs).1]

theorem catchUp_spec {fs : Files} (ht : Tidy fs) {w w' : Writer} (h : Core fs w) {latest : Nat}
    (hl : latest + 1 = fs.length) {s : Snap} (hs : w.snap = some s) (he : w.catchUp fs latest = some w') :
    Core fs w' ∧ SameJob w w' ∧ w'.phase = w.phase ∧ ∃ s', w'.snap = some s' ∧ s'.version = latest := by
  have hv := snap_lt ht (h.snap s hs)
  unfold Writer.catchUp at he
  simp only [hs] at he
  split_ifs at he with h1 h2 h3
  · cases hsn : fs.snap w.files latest with
    | none => simp [hsn] at he
    | some s' =>
      simp only [hsn, Option.some.injEq] at he
      subst he
      have hver := snap_version hsn
      rw [checkRange_spec] at h3
      refine ⟨⟨?_, ?_, ?_, ?_⟩, ⟨rfl, rfl, rfl, rfl⟩, rfl, s', rfl, hver⟩
      · intro t hts
        cases hts
        rw [hver]
        exact hsn
      · intro s0 h0
        obtain ⟨p1, p2, p3, t, p4, p5, p6, p7⟩ := h.plain s0 h0
        rw [hs] at p4
        cases p4
        refine ⟨p1, p2, p3, s', rfl, by omega, fun hr => absurd hr h2, ?_⟩
        intro u hu hu'
        dsimp only at *
        by_cases hus : u ≤ s.version
        · exact p7 u hu hus
        · obtain ⟨c, hc, hn⟩ := h3 u (by omega) (by omega)
          rw [p2] at hn
          exact ⟨c, s, hc, hn⟩
      · intro _ h0; cases h0
      · intro h0 t hts
        cases hts
        obtain ⟨q1, q2⟩ := h.adopted h0 s hs
        refine ⟨?_, q2⟩
        have hq : ∀ u, s.version < u → u ≤ latest →
            ∃ c, fs.get u = some c ∧ protocolsOf c.acts = [] ∧ metadatasOf c.acts = [] := by
          intro u hu hu'
          obtain ⟨c, hc, hn⟩ := h3 u (by omega) (by omega)
          obtain ⟨n1, n2, -⟩ := noConflict_plain hn
          obtain ⟨i1, i2⟩ := init_nil w.orig
          exact ⟨c, hc, n1 (by rw [q2]; exact i1), n2 (by rw [q2]; exact i2)⟩
        obtain ⟨e1, e2⟩ := snap_same ht (h.snap s hs) hsn (Nat.le_of_lt h1) hq
        exact (compatible_snap (w := { w with snap := some s' }) e1 e2).trans q1
  · cases he
    exact ⟨h, ⟨rfl, rfl, rfl, rfl⟩, rfl, s, hs, by omega⟩

/-- The file that a writer is about to write, or has written. `P` says which times of compacted log files may be
used. -/
def Aim (P : Option Int → Prop) (fs : Files) (w : Writer) (version : Nat) (ict : Option Int) (acts : List Act) : Prop :=
  ∃ prev now, finalize w.acts w.snap version prev now = (ict, acts) ∧ (effective w.snap acts).isSome = true ∧
    ((w.snap = none ∧ version = 0 ∧ prev = none) ∨ ∃ s via, w.snap = some s ∧ version = s.version + 1 ∧ P via ∧
      prev.isSome = true ∧ prev = previousTimestamp fs s via)

theorem aim_le {P : Option Int → Prop} {fs : Files} (ht : Tidy fs) {w : Writer} (h : Core fs w) {v : Nat} {ict : Option Int}
    {acts : List Act} (ha : Aim P fs w v ict acts) : v ≤ fs.length := by
  obtain ⟨prev, now, -, -, ⟨-, rfl, -⟩ | ⟨s, via, hs, rfl, -⟩⟩ := ha
  · exact Nat.zero_le _
  · exact snap_lt ht (h.snap s hs)

theorem aim_snoc {P : Option Int → Prop} {fs : Files} {x : Nat × Commit} (ht : Tidy (fs ++ [x])) {w : Writer}
    (h : Core fs w) {v : Nat} {ict : Option Int} {acts : List Act} (ha : Aim P fs w v ict acts) :
    Aim P (fs ++ [x]) w v ict acts := by
  obtain ⟨prev, now, h1, h2, h3 | ⟨s, via, hs, h3, h4, h5, h6⟩⟩ := ha
  · exact ⟨prev, now, h1, h2, .inl h3⟩
  · refine ⟨prev, now, h1, h2, .inr ⟨s, via, hs, h3, h4, h5, ?_⟩⟩
    rw [h6]
    unfold previousTimestamp
    cases via with
    | some t => rfl
    | none =>
      have hlt := snap_lt (tidy_snoc.mp ht).1 (h.snap s hs)
      dsimp only
      rw [tidy_get ht, tidy_get (tidy_snoc.mp ht).1, List.getElem?_append_left hlt]

theorem aim_spec {valid : Proto → Meta → List Act → Bool} {P : Option Int → Prop} {fs : Files} {w w' : Writer}
    {left v : Nat} {now : Int} {via : Option Int} (hP : P via) (he : w.aim valid fs left v now via = some w')
    (hv : (w.snap = none ∧ v = 0) ∨ ∃ s, w.snap = some s ∧ v = s.version + 1) :
    ∃ ict acts, w' = { w with phase := .aiming left v ict acts } ∧ Aim P fs w v ict acts := by
  unfold Writer.aim at he
  obtain ⟨hs, rfl⟩ | ⟨s, hs, rfl⟩ := hv
  · simp only [hs] at he
    split at he
    · rename_i p m hef
      split_ifs at he
      cases he
      exact ⟨_, _, by rw [hs], none, now, by rw [hs], by rw [hs, hef]; rfl, .inl ⟨hs, rfl, rfl⟩⟩
    · cases he
  · simp only [hs] at he
    cases hp : previousTimestamp fs s via with
    | none => simp [hp] at he
    | some t =>
      simp only [hp, Option.map_some] at he
      split at he
      · rename_i p m hef
        split_ifs at he
        cases he
        exact ⟨_, _, by rw [hs], some t, now, by rw [hs], by rw [hs, hef]; rfl, .inr ⟨s, via, hs, rfl, hP, rfl, hp.symm⟩⟩
      · cases he

theorem attempt_spec {valid : Proto → Meta → List Act → Bool} {P : Option Int → Prop} {fs : Files} (ht : Tidy fs)
    {w w' : Writer} (h : Core fs w) {left : Nat} {now : Int} {via : Option Int} (hP : P via)
    (he : w.attempt valid fs left now via = some w') :
    Core fs w' ∧ SameJob w w' ∧ ∃ v ict acts, w'.phase = .aiming left v ict acts ∧ Aim P fs w' v ict acts := by
  have aimPhase : ∀ {w : Writer} {v ict acts p}, Aim P fs w v ict acts → Aim P fs { w with phase := p } v ict acts :=
    fun h => h
  unfold Writer.attempt at he
  cases hl : fs.latestFrom ((w.snap.map (·.version)).getD 0) with
  | none =>
    simp only [hl] at he
    have hs : w.snap = none := by
      cases hs : w.snap with
      | none => rfl
      | some s =>
        have hv := snap_lt ht (h.snap s hs)
        unfold Files.latestFrom at hl
        rw [tidy_latest ht, if_neg (by omega), hs] at hl
        simp at hl
        omega
    obtain ⟨ict, acts, rfl, ha⟩ := aim_spec hP he (.inl ⟨hs, rfl⟩)
    exact ⟨core_phase h _, ⟨rfl, rfl, rfl, rfl⟩, 0, ict, acts, rfl, aimPhase ha⟩
  | some latest =>
    simp only [hl] at he
    have hlen : latest + 1 = fs.length := by
      unfold Files.latestFrom at hl
      rw [tidy_latest ht] at hl
      split_ifs at hl with h0
      simp at hl
      omega
    obtain ⟨w1, h1, he⟩ := Option.bind_eq_some_iff.mp he
    obtain ⟨w2, h2, he⟩ := Option.bind_eq_some_iff.mp he
    obtain ⟨c1, j1, -, s, hs, -⟩ := convert_spec ht h hlen h1
    obtain ⟨c2, j2, -, s', hs', hv'⟩ := catchUp_spec ht c1 hlen hs h2
    obtain ⟨ict, acts, rfl, ha⟩ := aim_spec hP he (.inr ⟨s', hs', by rw [hv']⟩)
    refine ⟨core_phase c2 _, ?_, _, ict, acts, rfl, aimPhase ha⟩
    exact ⟨j2.1.trans j1.1, j2.2.1.trans j1.2.1, j2.2.2.1.trans j1.2.2.1, j2.2.2.2.trans j1.2.2.2⟩

/-! ## The system -/

/-- What holds of a writer. -/
def Wr (P : Option Int → Prop) (fs : Files) (i : Nat) (w : Writer) : Prop :=
  Core fs w ∧ match w.phase with
    | .aiming _ v ict acts => Aim P fs w v ict acts
    | .done v => ∃ c, fs.get v = some c ∧ Aim P fs w v c.ict c.acts ∧ c.blind = w.blind ∧ c.owner = i
    | _ => True

theorem wr_snoc {P : Option Int → Prop} {fs : Files} {x : Nat × Commit} (ht : Tidy (fs ++ [x])) {i : Nat} {w : Writer}
    (h : Wr P fs i w) : Wr P (fs ++ [x]) i w := by
  refine ⟨core_snoc ht h.1, ?_⟩
  have h2 := h.2
  cases hp : w.phase with
  | ready n => trivial
  | failed => trivial
  | aiming left v ict acts =>
    rw [hp] at h2
    exact aim_snoc ht h.1 h2
  | done v =>
    rw [hp] at h2
    obtain ⟨c, h3, h4, h5⟩ := h2
    exact ⟨c, get_snoc ht h3, aim_snoc ht h.1 h4, h5⟩

structure Inv (P : Option Int → Prop) (y : Sys) : Prop where
  tidy : Tidy y.files
  writers : ∀ i w, y.writers[i]? = some w → Wr P y.files i w
  owners : ∀ v c, y.files.get v = some c → ∃ w, y.writers[c.owner]? = some w ∧ w.phase = .done v

theorem inv_init (P : Option Int → Prop) : Inv P Sys.init :=
  ⟨rfl, fun i w h => by simp [Sys.init] at h, fun v c h => by simp [Sys.init, Files.get] at h⟩

/-- The times of compacted log files used in `es` satisfy `P`. -/
def Vias (P : Option Int → Prop) (e : Ev) : Prop := ∀ i now via, e = .look i now via → P via

theorem inv_set {P : Option Int → Prop} {y : Sys} (h : Inv P y) {i : Nat} {w w' : Writer}
    (hw : y.writers[i]? = some w) (hnd : ∀ v, w.phase ≠ .done v) (h' : Wr P y.files i w') : Inv P (y.setWriter i w') := by
  have hi := (List.getElem?_eq_some_iff.mp hw).1
  refine ⟨h.tidy, ?_, ?_⟩
  · intro j u hu
    simp only [Sys.setWriter, List.getElem?_set] at hu
    split_ifs at hu with hij
    · cases hu; subst hij; exact h'
    · exact h.writers j u hu
  · intro v c hc
    obtain ⟨u, hu, hp⟩ := h.owners v c hc
    refine ⟨u, ?_, hp⟩
    simp only [Sys.setWriter, List.getElem?_set]
    split_ifs with hij
    · subst hij
      rw [hw] at hu
      cases hu
      exact absurd hp (hnd v)
    · exact hu

theorem inv_step {valid : Proto → Meta → List Act → Bool} {P : Option Int → Prop} {y : Sys} (h : Inv P y) (e : Ev)
    (hP : Vias P e) : Inv P (y.step valid e) := by
  cases e with
  | start op r base files acts =>
    have key : ∀ table, (∀ s, table = some s → y.files.snap files s.version = some s) →
        Inv P { y with writers := y.writers ++ [Writer.new op r table files acts] } := by
      intro table htab
      refine ⟨h.tidy, ?_, ?_⟩
      · intro i w hw
        by_cases hi : i < y.writers.length
        · rw [List.getElem?_append_left hi] at hw
          exact h.writers i w hw
        · rw [List.getElem?_append_right (by omega)] at hw
          obtain ⟨hlt, hval⟩ := List.getElem?_eq_some_iff.mp hw
          simp at hlt
          simp [hlt] at hval
          subst hval
          exact ⟨core_new htab, trivial⟩
      · intro v c hc
        obtain ⟨w, hw, hp⟩ := h.owners v c hc
        exact ⟨w, by rw [List.getElem?_append_left (List.getElem?_eq_some_iff.mp hw).1]; exact hw, hp⟩
    simp only [Sys.step, Sys.start]
    cases base with
    | none => exact key none (by simp)
    | some b =>
      dsimp only
      cases hb : y.files.snap files b with
      | none => exact h
      | some s =>
        refine key (some s) ?_
        intro t ht
        cases ht
        rw [snap_version hb]
        exact hb
  | look i now via =>
    simp only [Sys.step]
    cases hw : y.writers[i]? with
    | none => exact h
    | some w =>
      dsimp only
      cases hp : w.phase with
      | ready left =>
        dsimp only
        refine inv_set h hw (by rw [hp]; simp) ?_
        have hcore := (h.writers i w hw).1
        cases ha : w.attempt valid y.files left now via with
        | none => exact ⟨core_phase hcore _, trivial⟩
        | some w' =>
          obtain ⟨c1, -, v, ict, acts, hph, haim⟩ := attempt_spec h.tidy hcore (hP i now via rfl) ha
          refine ⟨c1, ?_⟩
          simp only [Option.getD_some]
          rw [hph]
          exact haim
      | aiming _ _ _ _ => exact h
      | done _ => exact h
      | failed => exact h
  | put i mtime =>
    simp only [Sys.step]
    cases hw : y.writers[i]? with
    | none => exact h
    | some w =>
      dsimp only
      cases hp : w.phase with
      | aiming left v ict acts =>
        dsimp only
        have hwr := h.writers i w hw
        have haim : Aim P y.files w v ict acts := by
          have := hwr.2
          rw [hp] at this
          exact this
        have hi := (List.getElem?_eq_some_iff.mp hw).1
        unfold Sys.put
        cases hput : y.files.put v ⟨w.blind, ict, acts, mtime, i⟩ with
        | none =>
          dsimp only
          refine inv_set h hw (by rw [hp]; simp) ⟨core_phase hwr.1 _, ?_⟩
          dsimp only
          split_ifs <;> trivial
        | some fs =>
          dsimp only
          obtain ⟨hv, rfl⟩ := tidy_put h.tidy (aim_le h.tidy hwr.1 haim) hput
          have ht' : Tidy (y.files ++ [(v, ⟨w.blind, ict, acts, mtime, i⟩)]) := tidy_snoc.mpr ⟨h.tidy, hv⟩
          have hnew : Files.get (y.files ++ [(v, ⟨w.blind, ict, acts, mtime, i⟩)]) v =
              some ⟨w.blind, ict, acts, mtime, i⟩ := by
            rw [tidy_get ht', hv]
            simp
          refine ⟨ht', ?_, ?_⟩
          · intro j u hu
            simp only [List.getElem?_set] at hu
            split_ifs at hu with hij
            · cases hu
              subst hij
              exact ⟨core_phase (core_snoc ht' hwr.1) _, _, hnew, aim_snoc ht' hwr.1 haim, rfl, rfl⟩
            · exact wr_snoc ht' (h.writers j u hu)
          · intro u c hc
            by_cases huv : u = v
            · subst huv
              rw [hnew] at hc
              cases hc
              exact ⟨{ w with phase := .done u }, by simp [hi], rfl⟩
            · have hc' : y.files.get u = some c := by
                rw [tidy_get ht'] at hc
                rw [tidy_get h.tidy]
                by_cases hlt : u < y.files.length
                · rw [List.getElem?_append_left hlt] at hc
                  exact hc
                · rw [List.getElem?_append_right (by omega), List.getElem?_eq_none (by simp; omega)] at hc
                  cases hc
              obtain ⟨u', hu', hph⟩ := h.owners u c hc'
              refine ⟨u', ?_, hph⟩
              simp only [List.getElem?_set]
              split_ifs with hij
              · subst hij
                rw [hw] at hu'
                cases hu'
                rw [hp] at hph
                cases hph
              · exact hu'
      | ready _ => exact h
      | done _ => exact h
      | failed => exact h

theorem inv_run {valid : Proto → Meta → List Act → Bool} {P : Option Int → Prop} (es : List Ev) (hP : ∀ e ∈ es, Vias P e) :
    Inv P (Sys.run valid es) := by
  induction es using List.reverseRecOn with
  | nil => exact inv_init P
  | append_singleton es e ih =>
    unfold Sys.run at *
    rw [List.foldl_append]
    exact inv_step (ih fun e he => hP e (by simp [he])) e (hP e (by simp))


/-! ## Later states -/

theorem catchUp_same {fs : Files} {w w' : Writer} {latest : Nat} (h : w.catchUp fs latest = some w') : SameJob w w' := by
  unfold Writer.catchUp at h
  split at h
  · cases h; exact ⟨rfl, rfl, rfl, rfl⟩
  · split_ifs at h
    · split at h
      · cases h; exact ⟨rfl, rfl, rfl, rfl⟩
      · cases h
    · cases h; exact ⟨rfl, rfl, rfl, rfl⟩

theorem sameJob_trans {a b c : Writer} (h1 : SameJob a b) (h2 : SameJob b c) : SameJob a c :=
  ⟨h2.1.trans h1.1, h2.2.1.trans h1.2.1, h2.2.2.1.trans h1.2.2.1, h2.2.2.2.trans h1.2.2.2⟩

theorem aim_same {valid : Proto → Meta → List Act → Bool} {fs : Files} {w w' : Writer} {left v : Nat} {now : Int}
    {via : Option Int} (h : w.aim valid fs left v now via = some w') : SameJob w w' := by
  unfold Writer.aim at h
  dsimp only at h
  split at h
  · cases h
  · split at h
    · split_ifs at h
      cases h
      exact ⟨rfl, rfl, rfl, rfl⟩
    · cases h

theorem attempt_same {valid : Proto → Meta → List Act → Bool} {fs : Files} {w w' : Writer} {left : Nat} {now : Int}
    {via : Option Int} (h : w.attempt valid fs left now via = some w') : SameJob w w' := by
  unfold Writer.attempt at h
  cases hl : fs.latestFrom ((w.snap.map (·.version)).getD 0) with
  | none => simp only [hl] at h; exact aim_same h
  | some latest =>
    simp only [hl] at h
    obtain ⟨w1, h1, h⟩ := Option.bind_eq_some_iff.mp h
    obtain ⟨w2, h2, h⟩ := Option.bind_eq_some_iff.mp h
    obtain ⟨w0, h0, h1⟩ := Option.bind_eq_some_iff.mp h1
    have j0 : SameJob w w0 := by
      unfold Writer.adopt at h0
      split at h0
      · cases h0; exact ⟨rfl, rfl, rfl, rfl⟩
      · split at h0
        · cases h0
        · cases h0; exact ⟨rfl, rfl, rfl, rfl⟩
    have j1 : SameJob w0 w1 := by
      unfold Writer.convert at h1
      obtain ⟨e1, e2, e3, e4, -⟩ := strip_same w0
      split at h1
      · cases h1; exact ⟨rfl, rfl, rfl, rfl⟩
      · split_ifs at h1
        · cases h1; exact ⟨e1, e2, e3, e4⟩
        · cases h1; exact ⟨rfl, rfl, rfl, rfl⟩
    exact sameJob_trans (sameJob_trans (sameJob_trans j0 j1) (catchUp_same h2)) (aim_same h)

/-- What one event leaves in place. -/
structure Later (y y' : Sys) : Prop where
  files : ∃ ext, y'.files = y.files ++ ext
  writers : ∀ (i : Nat) w, y.writers[i]? = some w → ∃ w', y'.writers[i]? = some w' ∧ SameJob w w' ∧
    (∀ v, w.phase = .done v → w' = w) ∧ (w.phase = .failed → w' = w)

theorem later_refl (y : Sys) : Later y y :=
  ⟨⟨[], by simp⟩, fun _ w h => ⟨w, h, ⟨rfl, rfl, rfl, rfl⟩, fun _ _ => rfl, fun _ => rfl⟩⟩

theorem later_trans {a b c : Sys} (h1 : Later a b) (h2 : Later b c) : Later a c := by
  obtain ⟨x1, e1⟩ := h1.files
  obtain ⟨x2, e2⟩ := h2.files
  refine ⟨⟨x1 ++ x2, by rw [e2, e1, List.append_assoc]⟩, ?_⟩
  intro i w hw
  obtain ⟨w', hw', j1, d1, f1⟩ := h1.writers i w hw
  obtain ⟨w'', hw'', j2, d2, f2⟩ := h2.writers i w' hw'
  refine ⟨w'', hw'', sameJob_trans j1 j2, ?_, ?_⟩
  · intro v hv
    have := d1 v hv
    subst this
    exact d2 v hv
  · intro hv
    have := f1 hv
    subst this
    exact f2 hv

theorem later_set {y : Sys} {i : Nat} {w w' : Writer} (hw : y.writers[i]? = some w) (hj : SameJob w w')
    (hd : ∀ v, w.phase ≠ .done v) (hf : w.phase ≠ .failed) (ext : Files) :
    Later y ⟨y.files ++ ext, y.writers.set i w'⟩ := by
  refine ⟨⟨ext, rfl⟩, ?_⟩
  intro j u hu
  by_cases hij : i = j
  · subst hij
    rw [hw] at hu
    cases hu
    exact ⟨w', by simp [(List.getElem?_eq_some_iff.mp hw).1], hj, fun v h => absurd h (hd v), fun h => absurd h hf⟩
  · exact ⟨u, by simp [hij, hu], ⟨rfl, rfl, rfl, rfl⟩, fun _ _ => rfl, fun _ => rfl⟩

theorem later_step {valid : Proto → Meta → List Act → Bool} (y : Sys) (e : Ev) : Later y (y.step valid e) := by
  cases e with
  | start op r base files acts =>
    have key : ∀ u, Later y { y with writers := y.writers ++ [u] } := by
      intro u
      refine ⟨⟨[], by simp⟩, ?_⟩
      intro i w hw
      refine ⟨w, ?_, ⟨rfl, rfl, rfl, rfl⟩, fun _ _ => rfl, fun _ => rfl⟩
      rw [List.getElem?_append_left (List.getElem?_eq_some_iff.mp hw).1]
      exact hw
    simp only [Sys.step, Sys.start]
    cases base with
    | none => exact key _
    | some b =>
      dsimp only
      cases y.files.snap files b with
      | none => exact later_refl y
      | some s => exact key _
  | look i now via =>
    simp only [Sys.step]
    cases hw : y.writers[i]? with
    | none => exact later_refl y
    | some w =>
      dsimp only
      cases hp : w.phase with
      | ready left =>
        dsimp only
        have := later_set (w' := (w.attempt valid y.files left now via).getD { w with phase := .failed }) hw ?_
          (by rw [hp]; simp) (by rw [hp]; simp) []
        · rw [List.append_nil] at this
          exact this
        · cases ha : w.attempt valid y.files left now via with
          | none => exact ⟨rfl, rfl, rfl, rfl⟩
          | some w' => exact attempt_same ha
      | aiming _ _ _ _ => exact later_refl y
      | done _ => exact later_refl y
      | failed => exact later_refl y
  | put i mtime =>
    simp only [Sys.step]
    cases hw : y.writers[i]? with
    | none => exact later_refl y
    | some w =>
      dsimp only
      cases hp : w.phase with
      | aiming left v ict acts =>
        dsimp only
        unfold Sys.put Files.put
        cases y.files.get v with
        | some c =>
          dsimp only
          have := later_set (w' := { w with phase := if left - 1 = 0 then .failed else .ready (left - 1) }) hw
            ⟨rfl, rfl, rfl, rfl⟩ (by rw [hp]; simp) (by rw [hp]; simp) []
          rw [List.append_nil] at this
          exact this
        | none =>
          dsimp only
          exact later_set (w' := { w with phase := .done v }) hw ⟨rfl, rfl, rfl, rfl⟩ (by rw [hp]; simp) (by rw [hp]; simp) _
      | ready _ => exact later_refl y
      | done _ => exact later_refl y
      | failed => exact later_refl y

theorem later_run {valid : Proto → Meta → List Act → Bool} (es es' : List Ev) :
    Later (Sys.run valid es) (Sys.run valid (es ++ es')) := by
  induction es' using List.reverseRecOn with
  | nil => rw [List.append_nil]; exact later_refl _
  | append_singleton es' e ih =>
    refine later_trans ih ?_
    rw [← List.append_assoc]
    unfold Sys.run
    rw [List.foldl_append (l' := [e])]
    exact later_step _ e

/-! ## What is written -/

theorem setIctFrom_protocols (v : Nat) (as : List Act) : protocolsOf (setIctFrom v as) = protocolsOf as := by
  induction as with
  | nil => rfl
  | cons a as ih =>
    have : ∀ (a : Act) (as : List Act), protocolsOf (a :: as) = protocolsOf [a] ++ protocolsOf as :=
      fun a as => protocolsOf_append [a] as
    cases a <;> unfold setIctFrom <;> rw [this, this _ as]
    all_goals first | rw [ih] | rfl

theorem setIctFrom_metadatas (v : Nat) (as : List Act) :
    (metadatasOf (setIctFrom v as)).map (fun m => { m with config := { m.config with ictFrom := none } }) =
      (metadatasOf as).map (fun m => { m with config := { m.config with ictFrom := none } }) := by
  induction as with
  | nil => rfl
  | cons a as ih =>
    have : ∀ (a : Act) (as : List Act), metadatasOf (a :: as) = metadatasOf [a] ++ metadatasOf as :=
      fun a as => metadatasOf_append [a] as
    cases a <;> unfold setIctFrom <;> rw [this, this _ as]
    all_goals first | (rw [List.map_append, ih, List.map_append]) | rfl

theorem setIctFrom_other (v : Nat) (as : List Act) :
    (setIctFrom v as).filter (fun a => !isInit a) = as.filter (fun a => !isInit a) := by
  induction as with
  | nil => rfl
  | cons a as ih =>
    have key : ∀ (a : Act) (l l' : List Act), l.filter (fun a => !isInit a) = l'.filter (fun a => !isInit a) →
        (a :: l).filter (fun a => !isInit a) = (a :: l').filter (fun a => !isInit a) := by
      intro a l l' h
      rw [List.filter_cons, List.filter_cons, h]
    cases a
    case metadata m => rfl
    all_goals exact key _ _ _ ih

end Verif.Delta.Commit
