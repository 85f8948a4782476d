import Verif.Delta.ChecksumLemmas

/-! # Properties of Delta version checksums: C110, C111 -/

namespace Verif.Delta.Log

open Spec

/-! ## C110: checksums -/

/-- **C110.** Whatever commits, checkpoints and clean-ups happened, and whichever commits wrote
checksums, a checksum file describes its version. Partial: commits add files that are not in the
table and remove files that are, the first commit says nothing twice about an application or a
domain, there are no log compactions (C38), and all checksums are by this engine. -/
theorem C110_describes_partial (sup : Nat → Bool) (sz : Sizes) (es : List CEv) (hes : NoCompacts es)
    (hf : Fresh sz (CSys.run sup sz es .init).log.history) (ho : FirstOnce (CSys.run sup sz es .init).log.history)
    (v : Nat) (c : Crc) (h : (v, c) ∈ (CSys.run sup sz es .init).crcs) :
    v < (CSys.run sup sz es .init).log.history.length ∧
    Describes sz c ((((CSys.run sup sz es .init).log.history.take (v + 1)).map (·.2)).flatten) := by
  have := crcInv_run sup sz hes hf ho v c h
  rw [acts, List.flatMap_def] at this
  exact this

/-- Sizes of the example: file `n` has `100 * n` bytes; the removal in version 3 has no size. -/
def exSizes : Sizes where
  file n := 100 * n
  removed v k := if v = 3 then none else if k.path = 1 then some 1000 else some 1100

/-- A table with two files, a replaced file, a removal without size, a removed domain, and a
checksum that disappears. -/
def exChecksums : List CEv :=
  [.log (.commit 10 exCreate), .checksum 0 false true,
   .log (.commit 20 exReplace), .checksum 1 true true,
   .log (.commit 30 exAppend), .checksum 2 true true,
   .log (.commit 40 [.remove ⟨2, none⟩ (some 40), .txn 5 ⟨2, none⟩]), .checksum 3 true true, .drop 2,
   .log (.commit 50 [.add ⟨3, none⟩ 13]), .checksum 4 true true]

theorem exChecksums_crcs : (CSys.run (fun _ => true) exSizes exChecksums .init).crcs =
    [(4, ⟨2500, 2, 1, 1, some [(5, ⟨2, none⟩)], none, ⟨7, 1000, 2000⟩, 1⟩),
     (3, ⟨1200, 1, 1, 1, some [(5, ⟨2, none⟩)], none, ⟨7, 1000, 2000⟩, 1⟩),
     (1, ⟨1100, 1, 1, 1, some [(5, ⟨1, none⟩)], some [(3, 4)], ⟨7, 1000, 2000⟩, 1⟩),
     (0, ⟨1000, 1, 1, 1, some [(5, ⟨1, none⟩)], none, ⟨7, 1000, 2000⟩, 1⟩)] := by decide +kernel

/-- `Fresh` can be decided by replaying: used for the example only. -/
def orderlyB (sz : Sizes) (v : Nat) : State → List Action → Bool
  | _, [] => true
  | s, a :: as => (match a with
    | .add k _ => !s.adds.any fun x => decide (x.1 = k)
    | .remove k _ => s.adds.any fun x => decide (x.1 = k) && (match sz.removed v k with
      | none => true
      | some n => decide (n = sz.file x.2))
    | _ => true) && orderlyB sz v (s.apply a) as

theorem orderlyB_spec {sz : Sizes} {v : Nat} {done as pre : List Action} {a : Action} {post : List Action}
    (h : orderlyB sz v (State.empty.applyAll done) as = true) (he : as = pre ++ a :: post) :
    (∀ k f f', a = .add k f → ¬ LastIs (IsFile k) (done ++ pre) (.add k f')) ∧
    (∀ k t, a = .remove k t → ∃ f, LastIs (IsFile k) (done ++ pre) (.add k f) ∧
      ∀ n, sz.removed v k = some n → n = sz.file f) := by
  induction pre generalizing done as with
  | nil =>
    rw [List.nil_append] at he
    subst he
    have ha := (agree_full done).2
    unfold orderlyB at h
    rw [List.append_nil]
    constructor
    · rintro k f f' rfl hl
      simp only [Bool.and_eq_true, Bool.not_eq_eq_eq_not, Bool.not_true, List.any_eq_false, decide_eq_true_eq] at h
      exact h.1 _ ((ha.adds k f').mpr hl) rfl
    · rintro k t rfl
      simp only [Bool.and_eq_true, List.any_eq_true, decide_eq_true_eq] at h
      obtain ⟨⟨⟨k', f⟩, hm, hk, hs⟩, -⟩ := h
      dsimp only at hk hs
      subst hk
      refine ⟨f, (ha.adds _ _).mp hm, fun n hn => ?_⟩
      rw [hn] at hs
      simpa using hs
  | cons x pre ih =>
    rw [List.cons_append] at he
    subst he
    unfold orderlyB at h
    rw [Bool.and_eq_true] at h
    have h2 := h.2
    have : (State.empty.applyAll done).apply x = State.empty.applyAll (done ++ [x]) := by
      rw [applyAll_append]; rfl
    rw [this] at h2
    have := ih h2 rfl
    simpa using this

theorem fresh_of_orderlyB {sz : Sizes} {h : List (Int × List Action)}
    (hb : ∀ v c, h[v]? = some c → orderlyB sz v (State.empty.applyAll (acts (h.take v))) c.2 = true) :
    Fresh sz h := by
  intro v ts pre a post hv
  have := orderlyB_spec (hb v _ hv) rfl
  rw [acts, List.flatMap_def] at this
  exact this

theorem exChecksums_fresh : Fresh exSizes (CSys.run (fun _ => true) exSizes exChecksums .init).log.history := by
  refine fresh_of_orderlyB ?_
  have hh : (CSys.run (fun _ => true) exSizes exChecksums .init).log.history =
      [(10, exCreate), (20, exReplace), (30, exAppend),
       (40, [.remove ⟨2, none⟩ (some 40), .txn 5 ⟨2, none⟩]), (50, [.add ⟨3, none⟩ 13])] := by
    rw [run_log]; decide +kernel
  rw [hh]
  intro v c hv
  match v, hv with
  | 0, hv => cases hv; decide +kernel
  | 1, hv => cases hv; decide +kernel
  | 2, hv => cases hv; decide +kernel
  | 3, hv => cases hv; decide +kernel
  | 4, hv => cases hv; decide +kernel
  | n + 5, hv => simp at hv

theorem exChecksums_once : FirstOnce (CSys.run (fun _ => true) exSizes exChecksums .init).log.history := by
  intro ts as h
  have : (CSys.run (fun _ => true) exSizes exChecksums .init).log.history[0]? = some (10, exCreate) := by
    rw [run_log]; decide +kernel
  rw [this] at h
  cases h
  simp [exCreate, IsTxn, IsDomain]

theorem exChecksums_noCompacts : NoCompacts exChecksums := by
  intro a b t; simp [exChecksums]

/-- The checksum of version 4 of the example counts two files of 2500 bytes; it was computed from
that of version 3, which was computed from the snapshot because a removal has no size. -/
example : Describes exSizes ⟨2500, 2, 1, 1, some [(5, ⟨2, none⟩)], none, ⟨7, 1000, 2000⟩, 1⟩
    ((((CSys.run (fun _ => true) exSizes exChecksums .init).log.history.take 5).map (·.2)).flatten) :=
  (C110_describes_partial _ _ _ exChecksums_noCompacts exChecksums_fresh exChecksums_once 4 _
    (by rw [exChecksums_crcs]; simp)).2

/-- **C110.** A commit with deletion vectors, or one after which the protocol has features that the
engine does not support, gets no checksum. -/
theorem C110_no_checksum (sup : Nat → Bool) (sz : Sizes) (y : CSys) (v : Nat) (hasBase readable : Bool)
    (ts : Int) (as : List Action) (hv : y.log.history[v]? = some (ts, as))
    (h : (∃ k f d, .add k f ∈ as ∧ k.dv = some d) ∨ (∃ k t d, .remove k t ∈ as ∧ k.dv = some d) ∨
      ∀ p, (State.empty.applyAll (((y.log.history.take (v + 1)).map (·.2)).flatten)).protocol = some p → sup p = false) :
    (y.step sup sz (.checksum v hasBase readable)).crcs = y.crcs := by
  have hnone : buildCrc sup sz y.log.store v as
      (if hasBase then baseOf (y.log.history.take v) else none)
      (if readable then lookupCrc y.crcs (v - 1) else none) = none := by
    unfold buildCrc
    split
    · rename_i p m hp hm
      rcases h with ⟨k, f, d, hk, hd⟩ | ⟨k, f, d, hk, hd⟩ | h
      · have : hasDv as = true := by
          unfold hasDv
          rw [List.any_eq_true]
          exact ⟨_, hk, by simp [hd]⟩
        simp [this]
      · have : hasDv as = true := by
          unfold hasDv
          rw [List.any_eq_true]
          exact ⟨_, hk, by simp [hd]⟩
        simp [this]
      · have hsplit : ((y.log.history.take (v + 1)).map (·.2)).flatten =
            acts (y.log.history.take v) ++ as := by
          rw [List.take_add_one, hv]
          simp [acts, List.flatMap_def]
        have hs : sup p = false := by
          refine h p ?_
          rw [hsplit, applyAll_append, applyAll_protocol]
          refine or_base ?_ hp
          cases hb : (if hasBase then baseOf (y.log.history.take v) else none) with
          | none => exact .inl rfl
          | some x =>
            have hb' : baseOf (y.log.history.take v) = some (x.1, x.2) := by
              split at hb
              · exact hb
              · cases hb
            exact .inr (by rw [(baseOf_spec hb').1]; rfl)
        simp [hs]
    · rfl
  simp only [CSys.step, hv]
  rw [hnone]
  split <;> rfl

example : (CSys.step (fun _ => true) exSizes (CSys.run (fun _ => true) exSizes
    [.log (.commit 10 exCreate), .log (.commit 20 [.remove ⟨1, none⟩ none, .add ⟨1, some 4⟩ 10])] .init)
    (.checksum 1 true true)).crcs = [] :=
  C110_no_checksum _ _ _ 1 true true 20 [.remove ⟨1, none⟩ none, .add ⟨1, some 4⟩ 10] (by decide +kernel) (.inl ⟨⟨1, some 4⟩, 10, 4, by decide, rfl⟩)

/-- A first commit that sets a domain and removes it again, and one that names an application twice. -/
def exTwice : List Action :=
  [.protocol 1, .metadata ⟨7, 1000, 2000⟩, .domain 3 (some 4), .domain 3 none, .txn 5 ⟨1, none⟩, .txn 5 ⟨2, none⟩]

/-- **C110 is false without the condition on the first commit**: its checksum lists a domain that is
not in force, and an application with two versions. -/
theorem C110_first_commit_refuted :
    ∃ c, lookupCrc (CSys.run (fun _ => true) exSizes [.log (.commit 10 exTwice), .checksum 0 false true] .init).crcs 0 =
      some c ∧ (3, 4) ∈ c.domains.getD [] ∧ (5, ⟨1, none⟩) ∈ c.txns.getD [] ∧ (5, ⟨2, none⟩) ∈ c.txns.getD [] ∧
      LastIs (IsDomain 3) exTwice (.domain 3 none) ∧ LastIs (IsTxn 5) exTwice (.txn 5 ⟨2, none⟩) := by
  refine ⟨⟨0, 0, 1, 1, some [(5, ⟨1, none⟩), (5, ⟨2, none⟩)], some [(3, 4)], ⟨7, 1000, 2000⟩, 1⟩,
    by decide +kernel, by simp, by simp, by simp, ?_, ?_⟩
  · exact ⟨exTwice.take 3, exTwice.drop 4, rfl, ⟨_, rfl⟩, by simp [exTwice, IsDomain]⟩
  · exact ⟨exTwice.take 5, [], rfl, ⟨_, rfl⟩, by simp⟩

/-- **C110 is false without the condition on files**: a path that is added again while it is in the
table is counted twice. -/
theorem C110_added_again_refuted :
    lookupCrc (CSys.run (fun _ => true) exSizes [.log (.commit 10 exCreate), .checksum 0 false true,
      .log (.commit 20 [.add ⟨1, none⟩ 10]), .checksum 1 true true] .init).crcs 1 =
      some ⟨2000, 2, 1, 1, some [(5, ⟨1, none⟩)], none, ⟨7, 1000, 2000⟩, 1⟩ ∧
    ((CSys.run (fun _ => true) exSizes [.log (.commit 10 exCreate), .checksum 0 false true,
      .log (.commit 20 [.add ⟨1, none⟩ 10]), .checksum 1 true true] .init).log.store.load 1).map (·.adds) =
      some [(⟨1, none⟩, 10)] := by
  constructor <;> decide +kernel

/-- The checksum that another writer left for version 0 of `exCreate`: it does not list transactions
and domains, which the format allows. -/
def exForeign : Crc := ⟨1000, 1, 1, 1, none, none, ⟨7, 1000, 2000⟩, 1⟩

/-- **C110 is false for checksums of other writers**: lists that the previous checksum leaves out
are taken to be empty, so the next checksum, and every header read from it, forgets application 5,
which the log has committed at version 1. -/
theorem C110_unknown_lists_refuted :
    let y : CSys := ⟨Sys.run [.commit 10 exCreate, .commit 20 exReplace] .init, [(0, exForeign)]⟩
    let y' := y.step (fun _ => true) exSizes (.checksum 1 true true)
    (lookupCrc y'.crcs 1).map (·.txns) = some none ∧
    (y'.log.store.openHeader y'.crcs 1 none).map (·.txns) = some [] ∧
    (y'.log.store.load 1).map (·.txns) = some [(5, ⟨1, none⟩)] := by
  refine ⟨?_, ?_, ?_⟩ <;> decide +kernel

/-! ## C111: headers -/

theorem known_iff (y : Sys) (h : Header) : Known y h ↔
    h.version < y.history.length ∧ HeaderOf h (((y.history.take (h.version + 1)).map (·.2)).flatten) := by
  rw [Known, acts, List.flatMap_def]

theorem known_prefix {y y' : Sys} (hp : y.history <+: y'.history) {h : Header} (hk : Known y h) : Known y' h := by
  obtain ⟨h1, h2⟩ := hk
  refine ⟨Nat.lt_of_lt_of_le h1 hp.length_le, ?_⟩
  rw [prefix_take hp h1]
  exact h2

theorem open_known {sz : Sizes} {y : CSys} (hi : Inv y.log) (hc : y.log.store.comps = []) (hcrc : CrcInv sz y)
    {target : Nat} {hint : Option Header} (hhint : ∀ h, hint = some h → Known y.log h ∧ h.version ≤ target)
    {h : Header} (hl : y.log.store.openHeader y.crcs target hint = some h) :
    h.version = target ∧ Known y.log h := by
  have hload : (y.log.store.load target).map (fun t => t.header target) = some h →
      h.version = target ∧ Known y.log h := by
    intro hh
    rw [Option.map_eq_some_iff] at hh
    obtain ⟨t, ht, rfl⟩ := hh
    obtain ⟨h1, h2⟩ := load_spec hi hc ht
    exact ⟨rfl, h1, h2.protocol, h2.metadata, h2.domains, h2.domainsOnce, h2.txns, h2.txnsKept, h2.txnsOnce⟩
  unfold Store.openHeader at hl
  split at hl
  · rename_i h' hh
    cases hl
    exact loadHeader_spec hi hc hcrc hhint hh
  · exact hload hl

/-- **C111.** A table opened without its files shows the protocol, metadata, domains and
transactions of the requested version. Partial: under the conditions of C110. -/
theorem C111_open_partial (sup : Nat → Bool) (sz : Sizes) (es : List CEv) (hes : NoCompacts es)
    (hf : Fresh sz (CSys.run sup sz es .init).log.history) (ho : FirstOnce (CSys.run sup sz es .init).log.history)
    (target : Nat) (h : Header)
    (hl : (CSys.run sup sz es .init).log.store.openHeader (CSys.run sup sz es .init).crcs target none = some h) :
    h.version = target ∧ target < (CSys.run sup sz es .init).log.history.length ∧
    HeaderOf h ((((CSys.run sup sz es .init).log.history.take (target + 1)).map (·.2)).flatten) := by
  obtain ⟨h1, h2⟩ := run_inv sup sz hes
  obtain ⟨e1, e2⟩ := open_known h1 h2 (crcInv_run sup sz hes hf ho) (by simp) hl
  rw [known_iff, e1] at e2
  exact ⟨e1, e2⟩

theorem run_split (sup : Nat → Bool) (sz : Sizes) (es es' : List CEv) (y : CSys) :
    CSys.run sup sz (es ++ es') y = CSys.run sup sz es' (CSys.run sup sz es y) := by
  simp [CSys.run]

theorem run_history (sup : Nat → Bool) (sz : Sizes) (es : List CEv) (y : CSys) :
    y.log.history <+: (CSys.run sup sz es y).log.history := by
  unfold CSys.run
  induction es generalizing y with
  | nil => exact List.prefix_refl _
  | cons e es ih => exact (cstep_history sup sz y e).trans (ih _)

/-- **C111.** A snapshot that was right stays right when it is brought forward to a later version,
whatever happened to the table in between. -/
theorem C111_update_partial (sup : Nat → Bool) (sz : Sizes) (es es' : List CEv) (hes : NoCompacts (es ++ es'))
    (hf : Fresh sz (CSys.run sup sz (es ++ es') .init).log.history)
    (ho : FirstOnce (CSys.run sup sz (es ++ es') .init).log.history) (old h : Header)
    (hold : old.version < (CSys.run sup sz es .init).log.history.length ∧
      HeaderOf old ((((CSys.run sup sz es .init).log.history.take (old.version + 1)).map (·.2)).flatten))
    (target : Nat)
    (hl : (CSys.run sup sz (es ++ es') .init).log.store.updateHeader (CSys.run sup sz (es ++ es') .init).crcs
      target old = some h) :
    h.version = target ∧ target < (CSys.run sup sz (es ++ es') .init).log.history.length ∧
    HeaderOf h ((((CSys.run sup sz (es ++ es') .init).log.history.take (target + 1)).map (·.2)).flatten) := by
  have hp : (CSys.run sup sz es .init).log.history <+: (CSys.run sup sz (es ++ es') .init).log.history := by
    rw [run_split]
    exact run_history _ _ _ _
  have hk := known_prefix hp ((known_iff _ _).mpr hold)
  obtain ⟨h1, h2⟩ := run_inv sup sz hes
  have hcrc := crcInv_run sup sz hes hf ho
  have key : h.version = target ∧ Known (CSys.run sup sz (es ++ es') .init).log h := by
    unfold Store.updateHeader at hl
    split_ifs at hl with ht ht'
    · cases hl
      exact ⟨ht.symm, hk⟩
    · exact open_known h1 h2 hcrc (fun x hx => by cases hx; exact ⟨hk, by omega⟩) hl
  obtain ⟨e1, e2⟩ := key
  rw [known_iff, e1] at e2
  exact ⟨e1, e2⟩

/-- **C111.** Opening without files agrees with loading the whole table. -/
theorem C111_same_as_load_partial (sup : Nat → Bool) (sz : Sizes) (es : List CEv) (hes : NoCompacts es)
    (hf : Fresh sz (CSys.run sup sz es .init).log.history) (ho : FirstOnce (CSys.run sup sz es .init).log.history)
    (target : Nat) (h : Header) (t : Table)
    (hl : (CSys.run sup sz es .init).log.store.openHeader (CSys.run sup sz es .init).crcs target none = some h)
    (ht : (CSys.run sup sz es .init).log.store.load target = some t) :
    h.protocol = t.protocol ∧ h.metadata = t.metadata ∧ (∀ d v, (d, v) ∈ h.domains ↔ (d, v) ∈ t.domains) ∧
    (∀ a x y, (a, x) ∈ h.txns → (a, y) ∈ t.txns → x = y) ∧
    (∀ a x, x.updated = none → ((a, x) ∈ h.txns ↔ (a, x) ∈ t.txns)) := by
  obtain ⟨-, -, h3⟩ := C111_open_partial sup sz es hes hf ho target h hl
  obtain ⟨i1, i2⟩ := run_inv sup sz hes
  have h4 := (load_spec i1 i2 ht).2
  rw [acts, List.flatMap_def] at h4
  refine ⟨?_, ?_, ?_, ?_, ?_⟩
  · exact (Action.protocol.inj (lastIs_unique h3.protocol h4.protocol))
  · exact (Action.metadata.inj (lastIs_unique h3.metadata h4.metadata))
  · intro d v
    rw [h3.domains, h4.domains]
  · intro a x y hx hy
    exact (Action.txn.inj (lastIs_unique (h3.txns a x hx) (h4.txns a y hy))).2
  · intro a x hx
    exact ⟨fun hm => h4.txnsKept a x (h3.txns a x hm) hx, fun hm => h3.txnsKept a x (h4.txns a x hm) hx⟩

/-- **C111.** A version that can be loaded can be opened without its files. -/
theorem C111_available (st : Store) (crcs : List (Nat × Crc)) (target : Nat) (hint : Option Header) (t : Table)
    (ht : st.load target = some t) : ∃ h, st.openHeader crcs target hint = some h := by
  unfold Store.openHeader
  split
  · exact ⟨_, rfl⟩
  · rw [ht]; exact ⟨_, rfl⟩

/-- **C111.** Checksums that do not count exactly one protocol and one metadata are ignored: a version
is opened as if they were not there. -/
theorem C111_wrong_counts_ignored (st : Store) (crcs : List (Nat × Crc)) (target : Nat) (hint : Option Header)
    (h : ∀ x ∈ crcs, x.2.numMetadata ≠ 1 ∨ x.2.numProtocol ≠ 1) :
    st.openHeader crcs target hint = st.openHeader [] target hint := by
  have hh : ∀ x ∈ crcs, ∀ v, headerOf v x.2 = none := by
    intro x hx v
    unfold headerOf
    rw [if_pos (h x hx)]
  have h1 : (lookupCrc crcs target).bind (headerOf target) = none := by
    cases hl : lookupCrc crcs target with
    | none => rfl
    | some c => exact hh _ (lookupCrc_mem hl) target
  have h2 : ∀ off floor, olderHeader crcs off floor target = none := by
    intro off floor
    unfold olderHeader
    rw [List.findSome?_eq_none_iff]
    intro x hx
    rw [mem_insSort, List.mem_filter] at hx
    exact hh x hx.1 _
  have h3 : st.resolveHeader crcs target hint = st.resolveHeader [] target hint := by
    unfold Store.resolveHeader
    rw [h1]
    simp only [h2]
    rfl
  unfold Store.openHeader Store.loadHeader
  rw [h3]

example (y : CSys) : y.log.store.openHeader (y.crcs.map fun x => (x.1, { x.2 with numMetadata := 0 })) 2 none =
    y.log.store.openHeader [] 2 none := by
  refine C111_wrong_counts_ignored _ _ _ _ ?_
  intro x hx
  obtain ⟨z, -, rfl⟩ := List.mem_map.mp hx
  exact .inl (by simp)

/-- **C111.** A snapshot is never brought back to an earlier version. -/
theorem C111_no_downgrade (st : Store) (crcs : List (Nat × Crc)) (target : Nat) (old : Header)
    (h : target < old.version) : st.updateHeader crcs target old = none := by
  unfold Store.updateHeader
  rw [if_neg (by omega), if_pos h]

/-- Version 2 has no checksum any more: its header comes from version 1 and one commit. -/
example : (CSys.run (fun _ => true) exSizes exChecksums .init).log.store.openHeader
    (CSys.run (fun _ => true) exSizes exChecksums .init).crcs 2 none =
    some ⟨2, 1, ⟨7, 1000, 2000⟩, [(5, ⟨1, none⟩)], []⟩ := by
  decide +kernel

/-- A snapshot of version 2 is brought forward to version 4. -/
example : (CSys.run (fun _ => true) exSizes (exChecksums ++ [.drop 4, .drop 3]) .init).log.store.updateHeader
    (CSys.run (fun _ => true) exSizes (exChecksums ++ [.drop 4, .drop 3]) .init).crcs 4
    ⟨2, 1, ⟨7, 1000, 2000⟩, [(5, ⟨1, none⟩)], []⟩ = some ⟨4, 1, ⟨7, 1000, 2000⟩, [(5, ⟨2, none⟩)], []⟩ := by
  decide +kernel

/-- A checkpoint newer than the checksum: 0 is the last checksum, 1 the checkpoint. -/
example : let y := CSys.run (fun _ => true) exSizes [.log (.commit 10 exCreate), .checksum 0 false true,
      .log (.commit 20 exReplace), .log (.checkpoint 1 5000 none true), .log (.commit 30 exAppend),
      .log (.cleanup 2 25)] .init
    y.log.store.openHeader y.crcs 2 none = some ⟨2, 1, ⟨7, 1000, 2000⟩, [(5, ⟨1, none⟩)], []⟩ ∧
    y.log.store.commits.map (·.version) = [1, 2] := by
  decide +kernel

end Verif.Delta.Log
