import Verif.Delta.CoverProps

/-! # Lemmas about log compactions -/

namespace Verif.Delta.Log

open Spec

theorem lastIs_append {P : Action → Prop} {xs ys : List Action} {a : Action} :
    LastIs P (xs ++ ys) a ↔ LastIs P ys a ∨ ((∀ y ∈ ys, ¬ P y) ∧ LastIs P xs a) := by
  induction ys using List.reverseRecOn generalizing a with
  | nil => simp [lastIs_nil]
  | append_singleton ys y ih =>
    rw [← List.append_assoc, lastIs_snoc, ih, lastIs_snoc]
    simp only [List.mem_append, List.mem_singleton]
    constructor
    · rintro (h | ⟨h1, h2 | ⟨h2, h3⟩⟩)
      · exact .inl (.inl h)
      · exact .inl (.inr ⟨h1, h2⟩)
      · refine .inr ⟨?_, h3⟩
        rintro z (hz | rfl)
        · exact h2 z hz
        · exact h1
    · rintro ((h | ⟨h1, h2⟩) | ⟨h1, h2⟩)
      · exact .inl h
      · exact .inr ⟨h1, .inl h2⟩
      · exact .inr ⟨h1 y (.inr rfl), .inr ⟨fun z hz => h1 z (.inl hz), h2⟩⟩

/-- The things actions are about. -/
def Topic (P : Action → Prop) : Prop :=
  P = IsProtocol ∨ P = IsMetadata ∨ (∃ a, P = IsTxn a) ∨ (∃ d, P = IsDomain d) ∨ ∃ k, P = IsFile k

/-- Two lists of actions end with the same action about every thing. -/
def Same (xs ys : List Action) : Prop := ∀ P, Topic P → ∀ a, LastIs P xs a ↔ LastIs P ys a

theorem same_append {pre xs ys : List Action} (h : Same xs ys) : Same (pre ++ xs) (pre ++ ys) := by
  intro P hP a
  rw [lastIs_append, lastIs_append, h P hP]
  have : (∀ y ∈ xs, ¬ P y) ↔ ∀ y ∈ ys, ¬ P y := by
    constructor
    · intro hx y hy hPy
      obtain ⟨b, hb⟩ := lastIs_exists ⟨y, hy, hPy⟩
      rw [← h P hP] at hb
      obtain ⟨u, w, rfl, hPb, -⟩ := hb
      exact hx b (by simp) hPb
    · intro hx y hy hPy
      obtain ⟨b, hb⟩ := lastIs_exists ⟨y, hy, hPy⟩
      rw [h P hP] at hb
      obtain ⟨u, w, rfl, hPb, -⟩ := hb
      exact hx b (by simp) hPb
  rw [this]

theorem agree_same {s : State} {xs ys : List Action} (h : Same xs ys) (ha : Agree s xs) : Agree s ys := by
  constructor
  · intro p; rw [ha.protocol, h _ (.inl rfl)]
  · intro p; rw [ha.metadata, h _ (.inr (.inl rfl))]
  · intro a t hat; rw [← h _ (.inr (.inr (.inl ⟨a, rfl⟩)))]; exact ha.txns a t hat
  · intro d v; rw [ha.domains, h _ (.inr (.inr (.inr (.inl ⟨d, rfl⟩))))]
  · intro k f; rw [ha.adds, h _ (.inr (.inr (.inr (.inr ⟨k, rfl⟩))))]
  · intro k t hkt; rw [← h _ (.inr (.inr (.inr (.inr ⟨k, rfl⟩))))]; exact ha.removes k t hkt
  · intro a t hat hn; rw [← h _ (.inr (.inr (.inl ⟨a, rfl⟩)))] at hat; exact ha.txnsKept a t hat hn
  · intro k hk; rw [← h _ (.inr (.inr (.inr (.inr ⟨k, rfl⟩))))] at hk; exact ha.removesKept k hk

/-- Without expiry nothing is missing. -/
structure Exact (s : State) (as : List Action) : Prop extends Agree s as where
  allTxns : ∀ a t, LastIs (IsTxn a) as (.txn a t) → (a, t) ∈ s.txns
  allRemoves : ∀ k t, LastIs (IsFile k) as (.remove k t) → (k, t) ∈ s.removes

theorem exact_apply {s : State} {as : List Action} (h : Exact s as) (a : Action) : Exact (s.apply a) (as ++ [a]) := by
  obtain ⟨h0, h1, h2⟩ := h
  refine ⟨agree_apply h0 a, ?_, ?_⟩
  · intro app t h
    rw [lastIs_snoc] at h
    obtain ⟨-, h⟩ | ⟨h, h'⟩ := h
    · subst h
      simp [State.apply, mem_put]
    · have := h1 app t h'
      cases a with
      | txn app' t' =>
        simp only [State.apply, mem_put]
        refine .inr ⟨?_, this⟩
        rintro rfl
        exact h ⟨_, rfl⟩
      | domain d v => cases v <;> exact this
      | _ => exact this
  · intro k t h
    rw [lastIs_snoc] at h
    obtain ⟨-, h⟩ | ⟨h, h'⟩ := h
    · subst h
      simp [State.apply, mem_put]
    · have := h2 k t h'
      cases a with
      | add k' f' =>
        simp only [State.apply, mem_del]
        refine ⟨?_, this⟩
        rintro rfl
        exact h (.inl ⟨_, rfl⟩)
      | remove k' t' =>
        simp only [State.apply, mem_put]
        refine .inr ⟨?_, this⟩
        rintro rfl
        exact h (.inr ⟨_, rfl⟩)
      | domain d v => cases v <;> exact this
      | _ => exact this

theorem exact_applyAll {s : State} {as : List Action} (h : Exact s as) (bs : List Action) :
    Exact (s.applyAll bs) (as ++ bs) := by
  unfold State.applyAll
  induction bs generalizing s as with
  | nil => simpa using h
  | cons b bs ih =>
    have := ih (exact_apply h b)
    simpa using this

theorem exact_empty : Exact .empty [] :=
  ⟨agree_empty, fun _ _ h => absurd h lastIs_nil, fun _ _ h => absurd h lastIs_nil⟩

namespace Spec

/-- Nothing that a compaction leaves out is needed: no domain ends up removed in the range and no
tombstone of the range has expired. -/
structure Lossless (as : List Action) (minTs : Int) : Prop where
  domains : ∀ d, ¬ LastIs (IsDomain d) as (.domain d none)
  tombstones : ∀ k t, LastIs (IsFile k) as (.remove k (some t)) → minTs ≤ t

end Spec

/-- The rows of a compaction, as in `Store.compact`. -/
def compRows (s : State) (minTs : Int) : List Action :=
  (s.protocol.toList.map Action.protocol) ++ (s.metadata.toList.map Action.metadata) ++
      txnRows s ++ domainRows s ++
      ((s.removes.filter fun x => match x.2 with
        | some t => decide (t ≥ minTs)
        | none => true).map fun x => Action.remove x.1 x.2) ++ addRows s

theorem compRows_same {as : List Action} {minTs : Int} (hl : Lossless as minTs) :
    Same (compRows (State.empty.applyAll as) minTs) as := by
  have hE : Exact (State.empty.applyAll as) as := by simpa using exact_applyAll exact_empty as
  have hw : WF (State.empty.applyAll as) := wf_applyAll wf_empty as
  generalize State.empty.applyAll as = s at hE hw
  have m1 : ∀ q, .protocol q ∈ compRows s minTs ↔ s.protocol = some q := by
    intro q; simp [compRows, txnRows, domainRows, addRows]
  have m2 : ∀ q, .metadata q ∈ compRows s minTs ↔ s.metadata = some q := by
    intro q; simp [compRows, txnRows, domainRows, addRows]
  have m3 : ∀ a t, .txn a t ∈ compRows s minTs ↔ (a, t) ∈ s.txns := by
    intro a t; simp [compRows, txnRows, domainRows, addRows]
  have m4 : ∀ d v, .domain d v ∈ compRows s minTs ↔ ∃ x, v = some x ∧ (d, x) ∈ s.domains := by
    intro d v; simp [compRows, txnRows, domainRows, addRows]; grind
  have m5 : ∀ k f, .add k f ∈ compRows s minTs ↔ (k, f) ∈ s.adds := by
    intro k f; simp [compRows, txnRows, domainRows, addRows]
  have m6 : ∀ k t, .remove k t ∈ compRows s minTs ↔ (k, t) ∈ s.removes := by
    intro k t
    simp only [compRows, txnRows, domainRows, addRows, List.mem_append, List.mem_map, List.mem_filter, reduceCtorEq,
      and_false, exists_false, or_false, false_or, Action.remove.injEq, Prod.exists]
    constructor
    · rintro ⟨a, b, ⟨h, -⟩, rfl, rfl⟩; exact h
    · intro h
      refine ⟨k, t, ⟨h, ?_⟩, rfl, rfl⟩
      cases t with
      | none => rfl
      | some t => simpa using hl.tombstones k t (hE.removes k _ h)
  have u5 : ∀ k, ∀ x ∈ compRows s minTs, ∀ y ∈ compRows s minTs, IsFile k x → IsFile k y → x = y := by
    rintro k x hx y hy (⟨f, rfl⟩ | ⟨t, rfl⟩) (⟨f', rfl⟩ | ⟨t', rfl⟩)
    · rw [m5] at hx hy; rw [keys_unique hw.adds hx hy]
    · rw [m5] at hx; rw [m6] at hy; exact absurd hy (hw.disjoint _ _ _ hx)
    · rw [m5] at hy; rw [m6] at hx; exact absurd hx (hw.disjoint _ _ _ hy)
    · rw [m6] at hx hy; rw [keys_unique hw.removes hx hy]
  have hP : ∀ {P : Action → Prop} {l : List Action} {a : Action}, LastIs P l a → P a := by
    rintro P l a ⟨_, _, _, h, _⟩; exact h
  rintro P (rfl | rfl | ⟨a, rfl⟩ | ⟨d, rfl⟩ | ⟨k, rfl⟩) x
  · constructor
    · intro h
      obtain ⟨p, rfl⟩ := hP h
      rw [lastIs_iff_mem ⟨p, rfl⟩, m1, hE.protocol] at h
      · exact h
      · rintro x hx y hy ⟨a, rfl⟩ ⟨b, rfl⟩
        rw [m1] at hx hy; rw [hx] at hy; cases hy; rfl
    · intro h
      obtain ⟨p, rfl⟩ := hP h
      rw [lastIs_iff_mem ⟨p, rfl⟩, m1, hE.protocol]
      · exact h
      · rintro x hx y hy ⟨a, rfl⟩ ⟨b, rfl⟩
        rw [m1] at hx hy; rw [hx] at hy; cases hy; rfl
  · have hu : ∀ x ∈ compRows s minTs, ∀ y ∈ compRows s minTs, IsMetadata x → IsMetadata y → x = y := by
      rintro x hx y hy ⟨a, rfl⟩ ⟨b, rfl⟩
      rw [m2] at hx hy; rw [hx] at hy; cases hy; rfl
    constructor
    · intro h
      obtain ⟨p, rfl⟩ := hP h
      rw [lastIs_iff_mem ⟨p, rfl⟩ hu, m2, hE.metadata] at h
      exact h
    · intro h
      obtain ⟨p, rfl⟩ := hP h
      rw [lastIs_iff_mem ⟨p, rfl⟩ hu, m2, hE.metadata]
      exact h
  · have hu : ∀ x ∈ compRows s minTs, ∀ y ∈ compRows s minTs, IsTxn a x → IsTxn a y → x = y := by
      rintro x hx y hy ⟨t, rfl⟩ ⟨t', rfl⟩
      rw [m3] at hx hy; rw [keys_unique hw.txns hx hy]
    constructor
    · intro h
      obtain ⟨t, rfl⟩ := hP h
      rw [lastIs_iff_mem ⟨t, rfl⟩ hu, m3] at h
      exact hE.txns a t h
    · intro h
      obtain ⟨t, rfl⟩ := hP h
      rw [lastIs_iff_mem ⟨t, rfl⟩ hu, m3]
      exact hE.allTxns a t h
  · have hu : ∀ x ∈ compRows s minTs, ∀ y ∈ compRows s minTs, IsDomain d x → IsDomain d y → x = y := by
      rintro x hx y hy ⟨t, rfl⟩ ⟨t', rfl⟩
      rw [m4] at hx hy
      obtain ⟨x, rfl, hx⟩ := hx
      obtain ⟨y, rfl, hy⟩ := hy
      rw [keys_unique hw.domains hx hy]
    constructor
    · intro h
      obtain ⟨v, rfl⟩ := hP h
      rw [lastIs_iff_mem ⟨v, rfl⟩ hu, m4] at h
      obtain ⟨v, rfl, h⟩ := h
      exact (hE.domains d v).mp h
    · intro h
      obtain ⟨v, rfl⟩ := hP h
      rw [lastIs_iff_mem ⟨v, rfl⟩ hu, m4]
      cases v with
      | none => exact absurd h (hl.domains d)
      | some v => exact ⟨v, rfl, (hE.domains d v).mpr h⟩
  · constructor
    · intro h
      obtain ⟨f, rfl⟩ | ⟨t, rfl⟩ := hP h
      · rw [lastIs_iff_mem (.inl ⟨f, rfl⟩) (u5 k), m5] at h
        exact (hE.adds k f).mp h
      · rw [lastIs_iff_mem (.inr ⟨t, rfl⟩) (u5 k), m6] at h
        exact hE.removes k t h
    · intro h
      obtain ⟨f, rfl⟩ | ⟨t, rfl⟩ := hP h
      · rw [lastIs_iff_mem (.inl ⟨f, rfl⟩) (u5 k), m5]
        exact (hE.adds k f).mpr h
      · rw [lastIs_iff_mem (.inr ⟨t, rfl⟩) (u5 k), m6]
        exact hE.allRemoves k t h

/-! ## The invariant for compactions -/

/-- The actions of versions `a` to `b`. -/
def slice (h : List (Int × List Action)) (a b : Nat) : List Action := acts ((h.drop a).take (b + 1 - a))

theorem acts_append (x y : List (Int × List Action)) : acts (x ++ y) = acts x ++ acts y := by
  simp [acts]

theorem acts_slice (h : List (Int × List Action)) {a b : Nat} (hab : a ≤ b + 1) :
    acts (h.take a) ++ slice h a b = acts (h.take (b + 1)) := by
  unfold slice
  rw [← acts_append, ← List.take_add]
  congr 2
  omega

/-- The compactions are faithful. -/
def CompsOk (y : Sys) : Prop :=
  ∀ c ∈ y.store.comps, c.start < c.stop ∧ c.stop < y.history.length ∧ Same c.actions (slice y.history c.start c.stop)

theorem find_versions {cs : List Commit} : ∀ (n a : Nat),
    (((List.range' a n).map fun v => cs.find? fun c => decide (c.version = v)).all Option.isSome) = true →
    ((((List.range' a n).map fun v => cs.find? fun c => decide (c.version = v)).filterMap id).map (·.version)) =
      List.range' a n ∧
    ∀ c ∈ (((List.range' a n).map fun v => cs.find? fun c => decide (c.version = v)).filterMap id), c ∈ cs := by
  intro n
  induction n with
  | zero => intro a _; simp
  | succ n ih =>
    intro a h
    rw [List.range'_succ, List.map_cons, List.all_cons, Bool.and_eq_true] at h
    obtain ⟨h1, h2⟩ := h
    obtain ⟨i1, i2⟩ := ih (a + 1) h2
    cases hf : cs.find? fun c => decide (c.version = a) with
    | none => rw [hf] at h1; cases h1
    | some c =>
      have hv := List.find?_some hf
      have hm := List.mem_of_find?_eq_some hf
      rw [List.range'_succ, List.map_cons, hf, List.filterMap_cons]
      change (List.map _ (c :: List.filterMap id _) = _) ∧ ∀ x ∈ c :: List.filterMap id _, x ∈ cs
      rw [List.map_cons, i1]
      refine ⟨by simpa using hv, ?_⟩
      intro x hx
      rw [List.mem_cons] at hx
      obtain rfl | hx := hx
      · exact hm
      · exact i2 x hx

theorem compsOk_compact {y : Sys} (hi : Inv y) (hc : CompsOk y) {a b : Nat} {t : Int} {st : Store}
    (h : y.store.compact a b t = some st) (hl : a < b → Lossless (slice y.history a b) t) :
    CompsOk { y with store := st } := by
  unfold Store.compact at h
  dsimp only at h
  split at h
  · rename_i hall
    split at h
    · cases h; exact hc
    · rename_i hne
      cases h
      intro c hcm
      simp only [List.mem_append, List.mem_singleton] at hcm
      obtain hcm | rfl := hcm
      · exact hc c hcm
      · have hab : a < b := by
          by_contra hn
          exact hne (.inl (by omega))
        obtain ⟨f1, f2⟩ := find_versions _ _ hall
        obtain ⟨g1, g2⟩ := slice_actions (h := y.history) (fun c hc => hi.commits c (f2 c hc)) f1
        have hlen := g2 (by omega)
        rw [show a + (b + 1 - a) = b + 1 by omega] at g1 hlen
        have e : ((((List.range' a (b + 1 - a)).map fun v =>
            y.store.commits.find? fun c => decide (c.version = v)).filterMap id).flatMap (·.actions)) =
            slice y.history a b := by
          rw [← acts_slice y.history (a := a) (b := b) (by omega)] at g1
          exact List.append_cancel_left g1
        refine ⟨hab, hlen, ?_⟩
        have := compRows_same (hl hab)
        rw [← e] at this ⊢
        exact this
  · cases h

/-! ## Replay with compactions -/

theorem chain_mem {stop : Nat} {ivs : List (Nat × Nat)} {e : Nat} (h : chain stop ivs e = true)
    (hle : ∀ p ∈ ivs, p.1 ≤ p.2) : e ≤ stop + 1 ∧ ∀ p ∈ ivs, e ≤ p.1 ∧ p.2 ≤ stop := by
  induction ivs generalizing e with
  | nil => simp [chain] at h; subst h; simp
  | cons p ivs ih =>
    obtain ⟨s, f⟩ := p
    unfold chain at h
    split at h
    · cases h
    · rename_i hs
      have hs : s = e := by omega
      have hsf := hle (s, f) (by simp)
      dsimp only at hsf
      obtain ⟨i1, i2⟩ := ih h (fun p hp => hle p (by simp [hp]))
      refine ⟨by omega, ?_⟩
      intro p hp
      rw [List.mem_cons] at hp
      obtain rfl | hp := hp
      · dsimp only; omega
      · have := i2 p hp; omega

theorem replaySeq_spec {h : List (Int × List Action)} {comps : List Comp} {stop : Nat}
    (hcomps : ∀ c ∈ comps, c.start < c.stop ∧ Same c.actions (slice h c.start c.stop))
    (ivs : List (Nat × Nat)) : ∀ (e fuel : Nat) (cs : List Commit) (s : State),
    chain stop ivs e = true → (∀ p ∈ ivs, p.1 ≤ p.2) →
    Faithful h cs → (cs.map (·.version)).Pairwise (· < ·) →
    (∀ c ∈ cs, e ≤ c.version ∧ (c.version, c.version) ∈ ivs) →
    (∀ w, (w, w) ∈ ivs → ∃ c ∈ cs, c.version = w) →
    (∀ c ∈ comps, e ≤ c.start → (c.start, c.stop) ∈ ivs) →
    (∀ a b, a < b → (a, b) ∈ ivs → ∃ c ∈ comps, c.start = a ∧ c.stop = b) →
    stop + 1 ≤ fuel + e → WF s → Agree s (acts (h.take e)) →
    WF (s.applyAll (replaySeq comps stop fuel cs e).flatten) ∧
      Agree (s.applyAll (replaySeq comps stop fuel cs e).flatten) (acts (h.take (stop + 1))) := by
  induction ivs with
  | nil =>
    intro e fuel cs s hch _ _ _ _ _ _ _ _ hw ha
    simp [chain] at hch
    subst hch
    have : replaySeq comps stop fuel cs (stop + 1) = [] := by
      cases fuel with
      | zero => rfl
      | succ f => unfold replaySeq; rw [if_pos (by omega)]
    rw [this]
    exact ⟨hw, ha⟩
  | cons p ivs ih =>
    obtain ⟨s0, f0⟩ := p
    intro e fuel cs s hch hle hf hsort hcs1 hcs2 hcp1 hcp2 hfuel hw ha
    have hrange := (chain_mem hch hle).2
    have hch' := hch
    unfold chain at hch'
    split at hch'
    · cases hch'
    · rename_i hs
      have hs : s0 = e := by omega
      subst hs
      have hsf := hle (s0, f0) (by simp)
      have hstop := (hrange (s0, f0) (by simp)).2
      dsimp only at hsf hstop
      have hle' : ∀ p ∈ ivs, p.1 ≤ p.2 := fun p hp => hle p (by simp [hp])
      have hrest := (chain_mem hch' hle').2
      obtain ⟨fuel, rfl⟩ : ∃ f, fuel = f + 1 := ⟨fuel - 1, by omega⟩
      unfold replaySeq
      rw [if_neg (by omega)]
      rcases Nat.lt_or_ge s0 f0 with hlt | hge
      · -- a compaction comes first
        obtain ⟨c0, hc0, hc0s, hc0e⟩ := hcp2 s0 f0 hlt (by simp)
        cases hfind : comps.find? fun c => decide (c.start = s0) with
        | none =>
          have := List.find?_eq_none.mp hfind c0 hc0
          simp [hc0s] at this
        | some c =>
          have hcm := List.mem_of_find?_eq_some hfind
          have hcv := List.find?_some hfind
          simp only [decide_eq_true_eq] at hcv
          have hin := hcp1 c hcm (by omega)
          have hstopc : c.stop = f0 := by
            rw [List.mem_cons] at hin
            obtain hin | hin := hin
            · exact (Prod.mk.inj hin).2
            · have := hrest _ hin; dsimp only at this; omega
          have hgt : ∀ x ∈ cs, f0 + 1 ≤ x.version := by
            intro x hx
            have := (hcs1 x hx).2
            rw [List.mem_cons] at this
            obtain h | h := this
            · obtain ⟨h1, h2⟩ := Prod.mk.inj h; omega
            · exact (hrest _ h).1
          have hdrop : (cs.dropWhile fun x => decide (x.version < c.stop + 1)) = cs := by
            cases cs with
            | nil => rfl
            | cons x xs =>
              have := hgt x (by simp)
              rw [List.dropWhile_cons_of_neg]
              simp
              omega
          dsimp only
          rw [hdrop, hstopc, List.flatten_cons]
          have happ : s.applyAll (c.actions ++ (replaySeq comps stop fuel cs (f0 + 1)).flatten) =
              (s.applyAll c.actions).applyAll (replaySeq comps stop fuel cs (f0 + 1)).flatten := by
            simp [State.applyAll]
          rw [happ]
          refine ih (f0 + 1) fuel cs (s.applyAll c.actions) hch' hle' hf hsort ?_ ?_ ?_ ?_ (by omega)
            (wf_applyAll hw _) ?_
          · intro x hx
            refine ⟨hgt x hx, ?_⟩
            have := (hcs1 x hx).2
            rw [List.mem_cons] at this
            obtain h | h := this
            · obtain ⟨h1, h2⟩ := Prod.mk.inj h; omega
            · exact h
          · intro w hw; exact hcs2 w (by simp [hw])
          · intro x hx hxs
            have := hcp1 x hx (by omega)
            rw [List.mem_cons] at this
            obtain h | h := this
            · obtain ⟨h1, h2⟩ := Prod.mk.inj h; omega
            · exact h
          · intro a b hab hm; exact hcp2 a b hab (by simp [hm])
          · have hA := agree_applyAll ha c.actions
            refine agree_same ?_ hA
            have hsame := (hcomps c hcm).2
            rw [hcv, hstopc] at hsame
            have := same_append (pre := acts (h.take s0)) hsame
            rwa [acts_slice h (by omega)] at this
      · -- a commit comes first
        have hef : f0 = s0 := by omega
        subst hef
        have hnone : comps.find? (fun c => decide (c.start = f0)) = none := by
          rw [List.find?_eq_none]
          intro c hc hcv
          simp only [decide_eq_true_eq] at hcv
          have hin := hcp1 c hc (by omega)
          have hlt := (hcomps c hc).1
          rw [List.mem_cons] at hin
          obtain hin | hin := hin
          · have := (Prod.mk.inj hin).2; omega
          · have := (hrest _ hin).1; dsimp only at this; omega
        rw [hnone]
        obtain ⟨c0, hc0, hc0v⟩ := hcs2 f0 (by simp)
        cases cs with
        | nil => cases hc0
        | cons x xs =>
          have hx := (hcs1 x (by simp)).1
          have hxv : x.version = f0 := by
            rw [List.mem_cons] at hc0
            obtain rfl | hc0 := hc0
            · exact hc0v
            · have : x.version < c0.version :=
                (List.pairwise_cons.mp hsort).1 c0.version (List.mem_map.mpr ⟨c0, hc0, rfl⟩)
              omega
          dsimp only
          rw [if_pos hxv, List.flatten_cons]
          have happ : s.applyAll (x.actions ++ (replaySeq comps stop fuel xs (f0 + 1)).flatten) =
              (s.applyAll x.actions).applyAll (replaySeq comps stop fuel xs (f0 + 1)).flatten := by
            simp [State.applyAll]
          rw [happ]
          have hxs : ∀ y ∈ xs, f0 + 1 ≤ y.version := by
            intro y hy
            have : x.version < y.version :=
              (List.pairwise_cons.mp hsort).1 y.version (List.mem_map.mpr ⟨y, hy, rfl⟩)
            omega
          refine ih (f0 + 1) fuel xs (s.applyAll x.actions) hch' hle' (fun c hc => hf c (by simp [hc]))
            (List.pairwise_cons.mp hsort).2 ?_ ?_ ?_ ?_ (by omega) (wf_applyAll hw _) ?_
          · intro y hy
            refine ⟨hxs y hy, ?_⟩
            have := (hcs1 y (by simp [hy])).2
            rw [List.mem_cons] at this
            obtain h | h := this
            · have := (Prod.mk.inj h).1; have := hxs y hy; omega
            · exact h
          · intro w hw
            obtain ⟨c, hc, hcw⟩ := hcs2 w (by simp [hw])
            rw [List.mem_cons] at hc
            obtain rfl | hc := hc
            · have := (hrest _ hw).1; dsimp only at this; omega
            · exact ⟨c, hc, hcw⟩
          · intro y hy hys
            have := hcp1 y hy (by omega)
            rw [List.mem_cons] at this
            obtain h | h := this
            · have := (Prod.mk.inj h).1; omega
            · exact h
          · intro a b hab hm; exact hcp2 a b hab (by simp [hm])
          · have hA := agree_applyAll ha x.actions
            have hget := hf x (by simp)
            rw [hxv] at hget
            rw [List.take_add_one, hget]
            simpa [acts] using hA

/-! ## Segments with compactions -/

theorem mem_listComps {st : Store} {off max : Nat} {c : Comp} (h : c ∈ st.listComps off max) : c ∈ st.comps := by
  unfold Store.listComps at h
  exact List.mem_of_mem_filter (mem_insSort.mp h)

theorem pickComps_mem {cs : List Comp} {covered : Option Nat} {c : Comp} (h : c ∈ pickComps cs covered) : c ∈ cs := by
  induction cs generalizing covered with
  | nil => cases h
  | cons x xs ih =>
    unfold pickComps at h
    split at h
    · exact List.mem_cons_of_mem _ (ih h)
    · rw [List.mem_cons] at h ⊢
      obtain rfl | h := h
      · exact .inl rfl
      · exact .inr (ih h)

theorem resolve_comp_mem {y : Sys} {v : Nat} {g : Segment} (h : y.store.resolve v = some g) {c : Comp}
    (hc : c ∈ g.comps) : c ∈ y.store.comps ∧ firstAfter g.ckpt ≤ c.start ∧ c.stop ≤ v := by
  obtain ⟨-, -, -, he, -⟩ := resolve_parts h
  have h1 : g.comps = _ := congrArg Prod.snd he
  rw [h1] at hc
  unfold resolveComps at hc
  dsimp only at hc
  have := List.mem_filter.mp (mem_insSort.mp (pickComps_mem (mem_insSort.mp hc)))
  refine ⟨mem_listComps this.1, ?_⟩
  simpa using this.2

theorem resolve_sorted {y : Sys} (hi : Inv y) {v : Nat} {g : Segment} (h : y.store.resolve v = some g) :
    (g.commits.map (·.version)).Pairwise (· < ·) := by
  obtain ⟨-, -, -, he, -⟩ := resolve_parts h
  have h1 : g.commits = _ := congrArg Prod.fst he
  rw [h1]
  unfold resolveComps
  dsimp only
  exact (listCommits_sorted hi.nodup _ _).sublist
    (List.Sublist.map _ (List.filter_sublist.trans List.filter_sublist))

namespace Spec

/-- No compaction begins right after a checkpoint. -/
def Unaligned (st : Store) : Prop := ∀ k ∈ st.ckpts, ∀ c ∈ st.comps, c.start ≠ k.version + 1

end Spec

/-- The intervals of a segment. -/
def ivsOf (g : Segment) (start stop : Nat) : List (Nat × Nat) :=
  (((g.commits.filter fun c => start ≤ c.version ∧ c.version ≤ stop).map fun c => (c.version, c.version)) ++
    g.comps.map fun c => (c.start, c.stop)).insSort fun a b => decide (a.1 ≤ b.1)

theorem mem_ivsOf {g : Segment} {start stop : Nat} {p : Nat × Nat}
    (hg : ∀ c ∈ g.commits, start ≤ c.version ∧ c.version ≤ stop) :
    p ∈ ivsOf g start stop ↔ (∃ c ∈ g.commits, p = (c.version, c.version)) ∨ ∃ c ∈ g.comps, p = (c.start, c.stop) := by
  unfold ivsOf
  rw [mem_insSort]
  simp only [List.mem_append, List.mem_map, List.mem_filter, decide_eq_true_eq]
  constructor
  · rintro (⟨c, ⟨h, -⟩, rfl⟩ | ⟨c, h, rfl⟩)
    · exact .inl ⟨c, h, rfl⟩
    · exact .inr ⟨c, h, rfl⟩
  · rintro (⟨c, h, rfl⟩ | ⟨c, h, rfl⟩)
    · exact .inl ⟨c, ⟨h, hg c h⟩, rfl⟩
    · exact .inr ⟨c, h, rfl⟩

theorem replay_comps {y : Sys} (hi : Inv y) (hc : CompsOk y) (hu : Unaligned y.store) {v : Nat} {g : Segment}
    (hg : y.store.resolve v = some g) (hne : g.comps ≠ []) :
    ∃ s, g.replay v = some s ∧ WF s ∧ Agree s (acts (y.history.take (v + 1))) ∧ v < y.history.length := by
  obtain ⟨hk, hle, -, -, hv⟩ := resolve_parts hg
  have hcm := fun c h => resolve_commit_mem hg (c := c) h
  have hpm := fun c h => resolve_comp_mem hg (c := c) h
  have hsort := resolve_sorted hi hg
  obtain ⟨hbw, hba⟩ := base_spec hi (fun c hc => (hk c hc).1)
  have hlt : ∀ c ∈ g.comps, c.start < c.stop := fun c h => (hc c (hpm c h).1).1
  have hstart : ¬ firstAfter g.ckpt > v := by
    obtain ⟨c, hcin⟩ := List.exists_mem_of_ne_nil _ hne
    have := hlt c hcin
    have := hpm c hcin
    omega
  have hch : chain v (ivsOf g (firstAfter g.ckpt) v) (firstAfter g.ckpt) = true := by
    unfold validate at hv
    rw [if_neg hstart, if_neg hne] at hv
    exact hv
  have hmem := fun p => mem_ivsOf (g := g) (p := p) (fun c h => (hcm c h).2)
  generalize ivsOf g (firstAfter g.ckpt) v = ivs at hch hmem
  have hleiv : ∀ p ∈ ivs, p.1 ≤ p.2 := by
    intro p hp
    obtain ⟨c, h, rfl⟩ | ⟨c, h, rfl⟩ := (hmem p).mp hp
    · exact Nat.le_refl _
    · have := hlt c h; dsimp only; omega
  have hfirst : g.first v = firstAfter g.ckpt := by
    unfold Segment.first
    cases hgk : g.ckpt with
    | none => rfl
    | some k =>
      rw [hgk] at hch hstart hcm
      simp only [firstAfter] at hch hstart hcm ⊢
      cases ivs with
      | nil => simp [chain] at hch; omega
      | cons p ivs =>
        obtain ⟨s0, f0⟩ := p
        have hs0 : s0 = k.version + 1 := by
          unfold chain at hch
          split at hch
          · cases hch
          · omega
        obtain ⟨c, h, hp⟩ | ⟨c, h, hp⟩ := (hmem (s0, f0)).mp (by simp)
        · have hcv : s0 = c.version := (Prod.mk.inj hp).1
          cases hgc : g.commits with
          | nil => rw [hgc] at h; cases h
          | cons x xs =>
            dsimp only
            have hx := (hcm x (by simp [hgc])).2.1
            rw [hgc, List.mem_cons] at h
            obtain rfl | h := h
            · omega
            · rw [hgc] at hsort
              have : x.version < c.version :=
                (List.pairwise_cons.mp hsort).1 c.version (List.mem_map.mpr ⟨c, h, rfl⟩)
              omega
        · have hcv : s0 = c.start := (Prod.mk.inj hp).1
          exact absurd (by omega) (hu k (hk k hgk).1 c (hpm c h).1)
  unfold Segment.replay
  rw [if_neg hne, hfirst]
  refine ⟨_, rfl, ?_⟩
  have hspec := replaySeq_spec (h := y.history) (comps := g.comps) (stop := v)
    (fun c h => ⟨hlt c h, (hc c (hpm c h).1).2.2⟩) ivs (firstAfter g.ckpt) (v + 1 - firstAfter g.ckpt) g.commits g.base
    hch hleiv (fun c h => hi.commits c (hcm c h).1) hsort
    (fun c h => ⟨(hcm c h).2.1, (hmem _).mpr (.inl ⟨c, h, rfl⟩)⟩)
    (by
      intro w hw
      obtain ⟨c, h, hp⟩ | ⟨c, h, hp⟩ := (hmem _).mp hw
      · exact ⟨c, h, (Prod.mk.inj hp).1.symm⟩
      · have := hlt c h
        have := Prod.mk.inj hp
        omega)
    (fun c h _ => (hmem _).mpr (.inr ⟨c, h, rfl⟩))
    (by
      intro a b hab hp
      obtain ⟨c, h, hp⟩ | ⟨c, h, hp⟩ := (hmem _).mp hp
      · have := Prod.mk.inj hp; omega
      · exact ⟨c, h, (Prod.mk.inj hp).1.symm, (Prod.mk.inj hp).2.symm⟩)
    (by omega) hbw hba
  refine ⟨hspec.1, hspec.2, ?_⟩
  -- the last interval ends at `v`
  have hlast : ∀ (l : List (Nat × Nat)) (e : Nat), chain v l e = true → (∀ p ∈ l, p.1 ≤ p.2) → e ≤ v →
      ∃ p ∈ l, p.2 = v := by
    intro l
    induction l with
    | nil => intro e h _ he; simp [chain] at h; omega
    | cons p l ih =>
      obtain ⟨s0, f0⟩ := p
      intro e h hl he
      have hf0 := ((chain_mem h hl).2 (s0, f0) (by simp)).2
      dsimp only at hf0
      by_cases hf : f0 = v
      · exact ⟨(s0, f0), by simp, hf⟩
      · unfold chain at h
        split at h
        · cases h
        · obtain ⟨p, hp, hpv⟩ := ih _ h (fun p hp => hl p (by simp [hp])) (by omega)
          exact ⟨p, by simp [hp], hpv⟩
  obtain ⟨p, hp, hpv⟩ := hlast ivs _ hch hleiv (by omega)
  obtain ⟨c, h, rfl⟩ | ⟨c, h, rfl⟩ := (hmem p).mp hp
  · dsimp only at hpv
    rw [← hpv]
    exact (List.getElem?_eq_some_iff.mp (hi.commits c (hcm c h).1)).1
  · dsimp only at hpv
    rw [← hpv]
    exact (hc c (hpm c h).1).2.1

end Verif.Delta.Log
