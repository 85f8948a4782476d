import Verif.Connect.Executor

/-!
# Invariants of reattachable execution
-/

namespace Verif.Connect

variable {α ρ : Type}

/-- The outputs the task itself is still to hand to the channel. -/
def pend : Pc α ρ → List (Out α ρ)
  | .replay o rest => o :: rest
  | .put o _ => [o]
  | _ => []

def Pc.active : Pc α ρ → Prop
  | .returned _ => False
  | _ => True

def Pc.plain : Pc α ρ → Prop
  | .returned _ => False
  | .replay _ _ => False
  | _ => True

/-- Ids are positions in the list of everything emitted. -/
def IdsOk (nextId : Nat) (emitted : List (Out α ρ)) : Prop :=
  nextId = emitted.length ∧ ∀ (i : Nat) (o : Out α ρ), emitted[i]? = some o → o.id = i

/-- The buffer is a suffix of everything emitted and misses only what the client has. -/
def BufOk (c : Cfg α ρ) (emitted buffer got : List (Out α ρ)) : Prop :=
  c.reattachable = true → ∃ pre, emitted = pre ++ buffer ∧ pre.length ≤ got.length

/-- The invariant at the points where the task holds no output. -/
structure Flow0 (c : Cfg α ρ) (s : Sys α ρ) : Prop where
  ids : IdsOk s.nextId s.emitted
  eq : s.emitted = s.got ++ (outs s.wire ++ (outs s.chan ++ s.lost))
  wireLe : s.wire.length ≤ c.wireCap
  chanLe : s.chan.length ≤ 1
  lostNil : s.rxOpen = true → s.lost = []
  slack : (outs s.wire).length + (outs s.chan).length + s.lost.length ≤ c.wireCap + 1
  buf : BufOk c s.emitted s.buffer s.got
  paus : s.exec = .pausing → c.reattachable = true

structure Flow (c : Cfg α ρ) (s : Sys α ρ) : Prop where
  ids : IdsOk s.nextId s.emitted
  eq : s.emitted = s.got ++ (outs s.wire ++ (outs s.chan ++ (s.lost ++ pend s.pc)))
  wireLe : s.wire.length ≤ c.wireCap
  chanLe : s.chan.length ≤ 1
  lostNil : s.rxOpen = true → s.pc.active → s.lost = []
  slack : s.pc.plain →
    (outs s.wire).length + (outs s.chan).length + s.lost.length ≤ c.wireCap + 1
  total : (outs s.wire).length + (outs s.chan).length + s.lost.length + (pend s.pc).length
    ≤ c.wireCap + 2
  buf : BufOk c s.emitted s.buffer s.got
  paus : s.exec = .pausing → c.reattachable = true

/-- The buffer of a reattachable operation has room for what can be in flight. -/
def Cfg.Room (c : Cfg α ρ) : Prop := c.reattachable = true → c.wireCap + 2 ≤ c.bufCap

theorem outs_length_le (l : List (Item α ρ)) : (outs l).length ≤ l.length :=
  List.length_filterMap_le _ _

theorem outs_append (l m : List (Item α ρ)) : outs (l ++ m) = outs l ++ outs m :=
  List.filterMap_append

@[simp] theorem outs_nil : outs ([] : List (Item α ρ)) = [] := rfl
@[simp] theorem outs_out (o : Out α ρ) (l : List (Item α ρ)) :
    outs (.out o :: l) = o :: outs l := rfl
@[simp] theorem outs_err (l : List (Item α ρ)) : outs (.err :: l) = outs l := rfl

theorem idsOk_emit {s : Sys α ρ} (h : IdsOk s.nextId s.emitted) (c : Cfg α ρ) (b : Body α ρ) (k : Kont) :
    IdsOk (emit c s b k).nextId (emit c s b k).emitted := by
  obtain ⟨h1, h2⟩ := h
  refine ⟨by simp [emit, h1], fun i o hi => ?_⟩
  simp only [emit] at hi
  rcases Nat.lt_trichotomy i s.emitted.length with hlt | heq | hgt
  · rw [List.getElem?_append_left hlt] at hi
    exact h2 i o hi
  · subst heq
    rw [List.getElem?_append_right (Nat.le_refl _)] at hi
    simp only [Nat.sub_self, List.getElem?_cons_zero, Option.some.injEq] at hi
    rw [← hi]
    exact h1
  · rw [List.getElem?_eq_none (by simp; omega)] at hi
    exact absurd hi (by simp)

theorem bufferAdd_suffix (cap : Nat) (hc : cap ≠ 0) (pre buffer : List (Out α ρ)) (o : Out α ρ)
    (n : Nat) (hpre : pre.length ≤ n) (hroom : pre.length + buffer.length + 1 ≤ n + cap) :
    ∃ pre', pre ++ buffer ++ [o] = pre' ++ bufferAdd cap buffer o ∧ pre'.length ≤ n := by
  unfold bufferAdd
  rw [if_neg hc]
  by_cases hf : cap ≤ buffer.length
  · rw [if_pos hf]
    cases buffer with
    | nil => simp at hf; omega
    | cons b rest =>
      refine ⟨pre ++ [b], by simp, ?_⟩
      simp at hroom hf ⊢
      omega
  · rw [if_neg hf]
    exact ⟨pre, by simp, hpre⟩

theorem Flow0.emit {c : Cfg α ρ} {s : Sys α ρ} (hr : c.Room) (h : Flow0 c s) (b : Body α ρ)
    (k : Kont) : Flow c (emit c s b k) := by
  refine ⟨idsOk_emit h.ids c b k, ?_, h.wireLe, h.chanLe, fun ho _ => h.lostNil ho,
    fun _ => h.slack, ?_, ?_, h.paus⟩
  · simp only [Connect.emit, pend]
    rw [h.eq]
    simp
  · simp only [Connect.emit, pend]
    have := h.slack
    simp
    omega
  · intro hre
    obtain ⟨pre, he, hl⟩ := h.buf hre
    have hroom := hr hre
    simp only [Connect.emit]
    have hlen : s.emitted.length ≤ s.got.length + (c.wireCap + 1) := by
      rw [h.eq]
      have := h.slack
      simp
      omega
    rw [he] at hlen
    simp at hlen
    rw [he]
    exact bufferAdd_suffix c.bufCap (by omega) pre s.buffer _ _ hl (by omega)

theorem Flow0.setPc {c : Cfg α ρ} {s : Sys α ρ} (h : Flow0 c s) (p : Pc α ρ) (hp : pend p = []) :
    Flow c { s with pc := p } := by
  refine ⟨h.ids, ?_, h.wireLe, h.chanLe, fun ho _ => h.lostNil ho, fun _ => h.slack, ?_, h.buf,
    h.paus⟩
  · simp only [hp, List.append_nil]
    exact h.eq
  · simp only [hp, List.length_nil]
    have := h.slack
    omega

theorem Flow0.continueWith {c : Cfg α ρ} {s : Sys α ρ} (hr : c.Room) (h : Flow0 c s) (k : Kont) :
    Flow c (continueWith c s k) := by
  cases k with
  | next e => exact h.setPc _ rfl
  | finish =>
    simp only [Connect.continueWith]
    cases c.reattachable with
    | true => exact h.emit hr _ _
    | false => exact h.setPc _ rfl
  | done => exact h.setPc _ rfl

theorem Flow0.begin {c : Cfg α ρ} {s : Sys α ρ} (hr : c.Room) (h : Flow0 c s) :
    Flow c (begin c s) := by
  unfold Connect.begin
  cases c.mode with
  | query => exact h.emit hr _ _
  | command f => exact h.setPc _ rfl

theorem Flow0.data {c : Cfg α ρ} {s : Sys α ρ} (h : Flow0 c s) (src held : List (List α))
    (taken : Bool) (runs : Nat) :
    Flow0 c { s with src := src, held := held, taken := taken, runs := runs } :=
  ⟨h.ids, h.eq, h.wireLe, h.chanLe, h.lostNil, h.slack, h.buf, h.paus⟩

theorem Flow0.streamEnd {c : Cfg α ρ} {s : Sys α ρ} (hr : c.Room) (h : Flow0 c s) (e : Bool) :
    Flow c (streamEnd c s e) := by
  unfold Connect.streamEnd
  cases c.mode with
  | query =>
    cases e with
    | true => exact h.emit hr _ _
    | false => exact h.continueWith hr .finish
  | command f =>
    simp only
    split
    · exact h.continueWith hr .finish
    · split
      · exact (h.data s.src [] true (s.runs + 1)).setPc .error rfl
      · exact (h.data s.src [] true (s.runs + 1)).continueWith hr _
      · exact (h.data s.src [] true (s.runs + 1)).emit hr _ _

theorem Flow0.streamNext {c : Cfg α ρ} {s : Sys α ρ} (hr : c.Room) (h : Flow0 c s) (e : Bool)
    (hpc : s.pc = .next e) : Flow c (streamNext c s e) := by
  unfold Connect.streamNext
  split
  · rename_i b rest hs
    split
    · exact (h.data rest s.held s.taken s.runs).emit hr _ _
    · have := (h.data rest (s.held ++ [b]) s.taken s.runs).setPc s.pc (by rw [hpc]; rfl)
      exact this
  · split
    · exact h.setPc _ rfl
    · exact h.streamEnd hr e

/-- From the invariant to the one without an output in hand. -/
theorem Flow.toFlow0 {c : Cfg α ρ} {s : Sys α ρ} (h : Flow c s) (hp : pend s.pc = [])
    (hpl : s.pc.plain) : Flow0 c s := by
  refine ⟨h.ids, ?_, h.wireLe, h.chanLe, fun ho => h.lostNil ho ?_, h.slack hpl, h.buf, h.paus⟩
  · have := h.eq
    rw [hp] at this
    simpa using this
  · cases hpc : s.pc <;> simp_all [Pc.plain, Pc.active]

theorem Flow.startTask {c : Cfg α ρ} {s : Sys α ρ} (hr : c.Room) (hids : IdsOk s.nextId s.emitted)
    (heq : s.emitted = s.got ++ s.buffer) (hlen : s.buffer.length ≤ c.wireCap + 2)
    (hwire : s.wire = []) (hchan : s.chan = []) (hlost : s.lost = [])
    (hre : s.exec = .pausing → c.reattachable = true) : Flow c (startTask c s) := by
  unfold Connect.startTask
  split
  · rename_i hb
    apply Flow0.begin hr
    refine ⟨hids, ?_, by simp [hwire], by simp [hchan], fun _ => hlost, by simp [hwire, hchan, hlost],
      fun _ => ⟨s.got, heq, Nat.le_refl _⟩, hre⟩
    rw [heq, hwire, hchan, hlost, hb]
    simp
  · rename_i o rest hb
    refine ⟨hids, ?_, by simp [hwire], by simp [hchan], fun _ _ => hlost, fun hp => absurd hp id, ?_,
      fun _ => ⟨s.got, heq, Nat.le_refl _⟩, hre⟩
    · simp only [pend]
      rw [heq, hwire, hchan, hlost, hb]
      simp
    · simp only [pend, hwire, hchan, hlost]
      rw [hb] at hlen
      simpa using hlen

theorem flow_init (c : Cfg α ρ) (hr : c.Room) (batches : List (List α)) (bad : Bool) :
    Flow c (init c batches bad) := by
  unfold init
  apply Flow.startTask hr
  · exact ⟨rfl, fun i o h => by simp at h⟩
  all_goals simp

theorem flow_work {c : Cfg α ρ} {s : Sys α ρ} (hr : c.Room) (h : Flow c s) : Flow c (work c s) := by
  unfold work
  split
  · rename_i o rest hpc
    split
    · refine ⟨h.ids, ?_, h.wireLe, h.chanLe, fun _ hp => absurd hp id, fun hp => absurd hp id, ?_,
        h.buf, h.paus⟩
      · have := h.eq
        rw [hpc] at this
        simpa [pend] using this
      · have := h.total
        rw [hpc] at this
        simp [pend] at this ⊢
        omega
    · rename_i hrx
      have hrx : s.rxOpen = true := by simpa using hrx
      have hlost := h.lostNil hrx (by rw [hpc]; trivial)
      have heq := h.eq
      have htot := h.total
      rw [hpc, hlost] at heq htot
      split
      · rename_i hchan
        split
        · apply Flow0.begin hr
          refine ⟨h.ids, ?_, h.wireLe, by simp, fun _ => hlost, ?_, h.buf, h.paus⟩
          · rw [heq, hchan]
            simp [hlost, pend]
          · have := Nat.le_trans (outs_length_le s.wire) h.wireLe
            simp [hlost]
            omega
        · rename_i o' rest'
          refine ⟨h.ids, ?_, h.wireLe, by simp, fun _ _ => hlost, fun hp => absurd hp id, ?_,
            h.buf, h.paus⟩
          · rw [heq, hchan]
            simp [hlost, pend]
          · simp [pend, hchan] at htot
            simp [pend, hlost]
            omega
      · exact h
  · rename_i o k hpc
    split
    · refine ⟨h.ids, ?_, h.wireLe, h.chanLe, fun _ hp => absurd hp id, fun hp => absurd hp id, ?_,
        h.buf, h.paus⟩
      · have := h.eq
        rw [hpc] at this
        simpa [pend] using this
      · have := h.total
        rw [hpc] at this
        simp [pend] at this ⊢
        omega
    · rename_i hrx
      have hrx : s.rxOpen = true := by simpa using hrx
      have hlost := h.lostNil hrx (by rw [hpc]; trivial)
      have heq := h.eq
      rw [hpc, hlost] at heq
      split
      · rename_i hchan
        apply Flow0.continueWith hr
        refine ⟨h.ids, ?_, h.wireLe, by simp, fun _ => hlost, ?_, h.buf, h.paus⟩
        · rw [heq, hchan]
          simp [hlost, pend]
        · have := Nat.le_trans (outs_length_le s.wire) h.wireLe
          simp [hlost]
          omega
      · exact h
  · rename_i e hpc
    exact (h.toFlow0 (by rw [hpc]; rfl) (by rw [hpc]; trivial)).streamNext hr e hpc
  · rename_i hpc
    have h0 := h.toFlow0 (by rw [hpc]; rfl) (by rw [hpc]; trivial)
    split
    · exact h0.setPc _ rfl
    · split
      · rename_i hchan
        have : Flow0 c { s with chan := [.err] } := by
          refine ⟨h0.ids, ?_, h0.wireLe, by simp, h0.lostNil, ?_, h0.buf, h0.paus⟩
          · have := h0.eq
            rw [hchan] at this
            simpa using this
          · have := h0.slack
            rw [hchan] at this
            simpa using this
        exact this.setPc _ rfl
      · exact h
  · exact h

theorem removeUntil_suffix (pre buffer : List (Out α ρ)) (n i : Nat)
    (hids : ∀ (j : Nat) (o : Out α ρ), (pre ++ buffer)[j]? = some o → o.id = j) (hpre : pre.length ≤ n) (hi : i < n)
    (hin : i < (pre ++ buffer).length) :
    ∃ pre', pre ++ buffer = pre' ++ removeUntil i buffer ∧ pre'.length ≤ n ∧
      i < pre'.length := by
  have hid : ∀ j o, buffer[j]? = some o → o.id = pre.length + j := fun j o hj => by
    apply hids
    rw [List.getElem?_append_right (by omega)]
    simpa using hj
  by_cases hlt : i < pre.length
  · refine ⟨pre, ?_, hpre, hlt⟩
    have : buffer.findIdx? (fun o => o.id == i) = none := by
      rw [List.findIdx?_eq_none_iff]
      intro o ho
      obtain ⟨j, hj, rfl⟩ := List.getElem_of_mem ho
      have := hid j buffer[j] (List.getElem?_eq_getElem hj)
      simp only [beq_eq_false_iff_ne, ne_eq]
      omega
    rw [removeUntil, this]
  · have hj : i - pre.length < buffer.length := by
      simp at hin
      omega
    have : buffer.findIdx? (fun o => o.id == i) = some (i - pre.length) := by
      rw [List.findIdx?_eq_some_iff_getElem]
      refine ⟨hj, ?_, fun j hji => ?_⟩
      · have := hid _ _ (List.getElem?_eq_getElem hj)
        simp only [beq_iff_eq]
        omega
      · have := hid j _ (List.getElem?_eq_getElem (by omega))
        simp only [beq_iff_eq]
        omega
    refine ⟨pre ++ buffer.take (i - pre.length + 1), ?_, ?_, ?_⟩
    · rw [removeUntil, this, List.append_assoc, List.take_append_drop]
    · simp
      omega
    · simp
      omega

theorem got_id {c : Cfg α ρ} {s : Sys α ρ} (h : Flow c s) {i : Nat} {o : Out α ρ}
    (ho : s.got[i]? = some o) : o.id = i ∧ i < s.got.length := by
  have hi : i < s.got.length := by
    rw [List.getElem?_eq_some_iff] at ho
    exact ho.1
  refine ⟨h.ids.2 i o ?_, hi⟩
  rw [h.eq, List.getElem?_append_left hi]
  exact ho

theorem flow_release {c : Cfg α ρ} {s : Sys α ρ} (h : Flow c s) (i : Nat) :
    Flow c (release c s i) := by
  unfold release
  split
  · split
    · rename_i o ho
      obtain ⟨hid, hi⟩ := got_id h ho
      refine ⟨h.ids, h.eq, h.wireLe, h.chanLe, h.lostNil, h.slack, h.total, fun hre => ?_, h.paus⟩
      obtain ⟨pre, he, hl⟩ := h.buf hre
      have hids := h.ids.2
      have hlen : s.got.length ≤ s.emitted.length := by
        rw [h.eq]
        simp
      rw [he] at hids hlen
      obtain ⟨pre', he', hl', -⟩ := removeUntil_suffix pre s.buffer s.got.length i hids hl hi
        (by omega)
      refine ⟨pre', ?_, hl'⟩
      show s.emitted = _
      rw [he, he', hid]
    · exact h
  · exact h

theorem flow_stop {c : Cfg α ρ} {s : Sys α ρ} (h : Flow c s) : Flow c (stop s) := by
  unfold stop
  split
  · rename_i o rest he hpc
    refine ⟨h.ids, ?_, h.wireLe, h.chanLe, fun _ hp => absurd hp id, fun hp => absurd hp id, ?_,
      h.buf, h.paus⟩
    · have := h.eq
      rw [hpc] at this
      simpa [pend] using this
    · have := h.total
      rw [hpc] at this
      simp [pend] at this ⊢
      omega
  · rename_i o k he hpc
    refine ⟨h.ids, ?_, h.wireLe, h.chanLe, fun _ hp => absurd hp id, fun hp => absurd hp id, ?_,
      h.buf, h.paus⟩
    · have := h.eq
      rw [hpc] at this
      simpa [pend] using this
    · have := h.total
      rw [hpc] at this
      simp [pend] at this ⊢
      omega
  · rename_i e he hpc
    exact (h.toFlow0 (by rw [hpc]; rfl) (by rw [hpc]; trivial)).setPc _ rfl
  · exact h

theorem removeUntil_last {c : Cfg α ρ} {s : Sys α ρ} (h : Flow c s) (hre : c.reattachable = true) :
    s.emitted = s.got ++ releaseLast s.got s.buffer := by
  unfold releaseLast
  obtain ⟨pre, he, hl⟩ := h.buf hre
  cases hg : s.got.getLast? with
  | none =>
    have hgn : s.got = [] := by simpa using hg
    rw [hgn] at hl ⊢
    have : pre = [] := by
      cases pre with
      | nil => rfl
      | cons => simp at hl
    simp only
    rw [he, this]
  | some o =>
    have hpos : 0 < s.got.length := by
      cases hgn : s.got with
      | nil => rw [hgn] at hg; simp at hg
      | cons => simp
    have ho : s.got[s.got.length - 1]? = some o := by
      rw [List.getLast?_eq_getElem?] at hg
      exact hg
    obtain ⟨hid, hi⟩ := got_id h ho
    have hids := h.ids.2
    have hlen : s.got.length ≤ s.emitted.length := by
      rw [h.eq]
      simp
    rw [he] at hids hlen
    obtain ⟨pre', he', hl', hi'⟩ := removeUntil_suffix pre s.buffer s.got.length (s.got.length - 1)
      hids hl hi (by omega)
    simp only
    rw [hid]
    have hpg : pre'.length = s.got.length := by omega
    have h1 : s.emitted = pre' ++ removeUntil (s.got.length - 1) s.buffer := by rw [he, he']
    have h2 := h.eq
    have : pre' = s.got := by
      have := congrArg (List.take s.got.length) (h1.symm.trans h2)
      rw [List.take_left' hpg, List.take_left] at this
      exact this
    rw [h1, this]

theorem flow_resume {c : Cfg α ρ} {s : Sys α ρ} (hr : c.Room) (h : Flow c s) :
    Flow c (resume c s) := by
  unfold resume
  split
  · rename_i he hpc
    have hre := h.paus he
    have heq := removeUntil_last h hre
    apply Flow.startTask hr
    · exact h.ids
    · exact heq
    · have h1 := congrArg List.length h.eq
      have h2 := congrArg List.length heq
      have h3 := h.total
      rw [hpc] at h1 h3
      simp only [List.length_append, pend, List.length_nil] at h1 h2 h3 ⊢
      omega
    · rfl
    · rfl
    · rfl
    · intro hx
      exact absurd hx (by simp)
  · rename_i he hpc
    exact ⟨h.ids, h.eq, h.wireLe, h.chanLe, h.lostNil, h.slack, h.total, h.buf,
      fun hx => absurd hx (by simp)⟩
  · rename_i he hpc
    exact ⟨h.ids, h.eq, h.wireLe, h.chanLe, h.lostNil, h.slack, h.total, h.buf,
      fun hx => absurd hx (by simp)⟩
  · exact h

theorem flow_step {c : Cfg α ρ} {s : Sys α ρ} (hr : c.Room) (h : Flow c s) (e : Event) :
    Flow c (step c s e) := by
  cases e with
  | work => exact flow_work hr h
  | beat =>
    simp only [step, beat]
    split
    · rename_i e hpc
      exact (h.toFlow0 (by rw [hpc]; rfl) (by rw [hpc]; trivial)).emit hr _ _
    · exact h
  | stop => exact flow_stop h
  | resume => exact flow_resume hr h
  | reattach =>
    simp only [step, reattach]
    split
    · exact ⟨h.ids, h.eq, h.wireLe, h.chanLe, h.lostNil, h.slack, h.total, h.buf, h.paus⟩
    · rename_i hre
      have hre : c.reattachable = true := by simpa using hre
      split
      · exact ⟨h.ids, h.eq, h.wireLe, h.chanLe, h.lostNil, h.slack, h.total, h.buf, fun _ => hre⟩
      · exact h
      · exact ⟨h.ids, h.eq, h.wireLe, h.chanLe, h.lostNil, h.slack, h.total, h.buf, fun _ => hre⟩
      · exact ⟨h.ids, h.eq, h.wireLe, h.chanLe, h.lostNil, h.slack, h.total, h.buf, fun _ => hre⟩
  | release i => exact flow_release h i
  | pull =>
    simp only [step, pull]
    split
    · rename_i hw
      refine ⟨h.ids, ?_, ?_, by simp, h.lostNil, fun hp => ?_, ?_, h.buf, h.paus⟩
      · have := h.eq
        simpa [outs_append] using this
      · have := h.chanLe
        simp
        omega
      · have := h.slack hp
        simp [outs_append]
        omega
      · have := h.total
        simp [outs_append]
        omega
    · exact h
  | deliver =>
    simp only [step, deliver]
    split
    · split
      · exact h
      · rename_i o rest hw
        have heq := h.eq
        have hwl := h.wireLe
        have ht := h.total
        rw [hw] at heq hwl ht
        refine ⟨h.ids, ?_, ?_, h.chanLe, h.lostNil, fun hp => ?_, ?_, fun hre => ?_, h.paus⟩
        · simpa using heq
        · simp at hwl ⊢
          omega
        · have := h.slack hp
          rw [hw] at this
          simp at this ⊢
          omega
        · simp at ht ⊢
          omega
        · obtain ⟨pre, he, hl⟩ := h.buf hre
          exact ⟨pre, he, by simp; omega⟩
      · rename_i rest hw
        have heq := h.eq
        have hwl := h.wireLe
        have ht := h.total
        rw [hw] at heq hwl ht
        refine ⟨h.ids, ?_, ?_, h.chanLe, h.lostNil, fun hp => ?_, ?_, h.buf, h.paus⟩
        · simpa using heq
        · simp at hwl ⊢
          omega
        · have := h.slack hp
          rw [hw] at this
          simpa using this
        · simpa using ht
    · exact h
  | lose => exact ⟨h.ids, h.eq, h.wireLe, h.chanLe, h.lostNil, h.slack, h.total, h.buf, h.paus⟩
  | drop =>
    refine ⟨h.ids, ?_, h.wireLe, by simp [step, drop], fun hx => absurd hx (by simp [step, drop]),
      fun hp => ?_, ?_, h.buf, h.paus⟩
    · have := h.eq
      simpa [step, drop] using this
    · have := h.slack hp
      simp [step, drop]
      omega
    · have := h.total
      simp [step, drop]
      omega

theorem flow_run {c : Cfg α ρ} (hr : c.Room) (es : List Event) :
    ∀ s : Sys α ρ, Flow c s → Flow c (run c s es) := by
  induction es with
  | nil => exact fun s h => h
  | cons e es ih => exact fun s h => ih _ (flow_step hr h e)

end Verif.Connect
