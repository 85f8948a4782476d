import Verif.Exec.Streams
import Mathlib.Data.Nat.Digits.Lemmas
import Mathlib.Algebra.BigOperators.Group.List.Basic
import Mathlib.Data.List.Nodup

/-!
# Properties of task streams: C16 (replicas), C18, C19, C29, C34
-/

namespace Verif.Exec.Streams

/-! ## In-memory streams -/

section Mem

variable {α : Type}

theorem flush_append (cap : Nat) (chan o : List α) :
    (flush cap chan o).1 ++ (flush cap chan o).2 = chan ++ o := by
  induction o generalizing chan with
  | nil => simp [flush]
  | cons b rest ih =>
    unfold flush
    split
    · rw [ih]; simp
    · rfl

theorem flush_cap (cap : Nat) (chan o : List α) (h : chan.length ≤ cap) :
    (flush cap chan o).1.length ≤ cap := by
  induction o generalizing chan with
  | nil => simpa [flush] using h
  | cons b rest ih =>
    unfold flush
    split
    · apply ih; simp; omega
    · exact h

/-- Invariant of one replica. -/
structure RInv (cap : Nat) (written : List α) (r : Replica α) : Prop where
  prefix_ : r.received <+: written
  open_ : r.reader = true → r.sender = true ∧ r.received ++ r.chan ++ r.overflow = written
  room : r.chan.length ≤ cap

theorem rinv_write {cap : Nat} {written : List α} {r : Replica α} (h : RInv cap written r) (b : α) :
    RInv cap (written ++ [b]) (r.write cap b) := by
  have hp : r.received <+: written ++ [b] := h.prefix_.trans (List.prefix_append _ _)
  unfold Replica.write
  split
  · rename_i hs
    refine ⟨hp, fun hr => ?_, h.room⟩
    have := (h.open_ hr).1
    rw [hs] at this; cases this
  · split
    · rename_i hr
      exact ⟨hp, fun hr' => by simp [hr] at hr', h.room⟩
    · rename_i hs hr
      have hr' : r.reader = true := by simpa using hr
      have hs' : r.sender = true := by simpa using hs
      obtain ⟨_, heq⟩ := h.open_ hr'
      have hfa := flush_append cap r.chan r.overflow
      have hfc := flush_cap cap r.chan r.overflow h.room
      split
      · rename_i chan hf
        rw [hf] at hfa hfc
        simp only [List.append_nil] at hfa hfc
        split
        · rename_i hl
          refine ⟨hp, fun _ => ⟨hs', ?_⟩, by simp; omega⟩
          simp only [List.append_nil]
          rw [hfa, ← heq]; simp
        · refine ⟨hp, fun _ => ⟨hs', ?_⟩, hfc⟩
          simp only
          rw [hfa, ← heq]; simp
      · rename_i chan o hne hf
        rw [hf] at hfa hfc
        refine ⟨hp, fun _ => ⟨hs', ?_⟩, hfc⟩
        simp only at hfa ⊢
        rw [← heq, List.append_assoc, ← List.append_assoc chan, hfa]
        simp

theorem rinv_read {cap : Nat} {written : List α} {r : Replica α} (h : RInv cap written r) :
    RInv cap written r.read := by
  unfold Replica.read
  split
  · rename_i hr
    obtain ⟨hs, heq⟩ := h.open_ hr
    have he : r.received ++ r.chan.take 1 ++ r.chan.drop 1 ++ r.overflow = written := by
      rw [← heq, List.append_assoc r.received, List.take_append_drop]
    refine ⟨⟨r.chan.drop 1 ++ r.overflow, ?_⟩, fun _ => ⟨hs, he⟩, ?_⟩
    · rw [← List.append_assoc]; exact he
    · have := h.room
      simp; omega
  · exact h

theorem rinv_drop {cap : Nat} {written : List α} {r : Replica α} (h : RInv cap written r) :
    RInv cap written r.dropReader :=
  ⟨h.prefix_, fun hr => by simp [Replica.dropReader] at hr, h.room⟩

theorem rinv_commit {cap : Nat} {written : List α} (rs : List (Replica α))
    (h : ∀ r ∈ rs, RInv cap written r) : ∀ r ∈ commitReplicas cap rs, RInv cap written r := by
  induction rs with
  | nil => exact h
  | cons r rest ih =>
    have hr := h r (by simp)
    have hrest : ∀ x ∈ rest, RInv cap written x := fun x hx => h x (List.mem_cons_of_mem _ hx)
    unfold commitReplicas
    intro x hx
    split at hx
    · split at hx
      · rename_i hrd
        rcases List.mem_cons.mp hx with rfl | hx
        · exact ⟨hr.prefix_, fun hh => by simp [hrd] at hh, hr.room⟩
        · exact hrest x hx
      · split at hx
        · rename_i hl
          rcases List.mem_cons.mp hx with rfl | hx
          · refine ⟨hr.prefix_, fun hh => ?_, ?_⟩
            · obtain ⟨hs, heq⟩ := hr.open_ hh
              refine ⟨hs, ?_⟩
              simp only
              rw [← heq, ← List.append_assoc, List.append_assoc _ (r.overflow.take 1),
                List.take_append_drop]
            · have := List.length_take_le 1 r.overflow
              simp only [List.length_append]; omega
          · exact hrest x hx
        · exact h x hx
    · rcases List.mem_cons.mp hx with rfl | hx
      · exact hr
      · exact ih hrest x hx

/-- Invariant of a stream. -/
structure MInv (m : Mem α) : Prop where
  each : ∀ r ∈ m.replicas, RInv m.cap m.written r
  done : m.phase = .committed → ∀ r ∈ m.replicas, r.reader = true → r.overflow = []

theorem mem_modify {β : Type} {l : List β} {i : Nat} {f : β → β} {x : β} (h : x ∈ l.modify i f) :
    x ∈ l ∨ ∃ y ∈ l, x = f y := by
  obtain ⟨n, hn⟩ := List.mem_iff_getElem?.mp h
  rw [List.getElem?_modify] at hn
  obtain ⟨y, hy, he⟩ := Option.map_eq_some_iff.mp hn
  have hm := List.mem_of_getElem? hy
  split at he
  · exact Or.inr ⟨y, hm, he.symm⟩
  · left; rw [← he]; exact hm

theorem minv_step {m : Mem α} (h : MInv m) (e : Ev α) : MInv (m.step e) := by
  cases e with
  | write b =>
    simp only [Mem.step]
    split
    · rename_i hp
      refine ⟨fun r hr => ?_, fun hc => ?_⟩
      · obtain ⟨r0, hr0, rfl⟩ := List.mem_map.mp hr
        exact rinv_write (h.each r0 hr0) b
      · simp only [Mem.write] at hc
        rw [hp] at hc; cases hc
    · exact h
  | read i =>
    refine ⟨fun r hr => ?_, fun hc r hr hrd => ?_⟩
    · rcases mem_modify hr with hr | ⟨y, hy, rfl⟩
      · exact h.each r hr
      · exact rinv_read (h.each y hy)
    · rcases mem_modify hr with hr | ⟨y, hy, rfl⟩
      · exact h.done hc r hr hrd
      · unfold Replica.read at hrd ⊢
        split
        · rename_i hy'
          exact h.done hc y hy hy'
        · rename_i hy'
          rw [if_neg hy'] at hrd
          exact h.done hc y hy hrd
  | drop i =>
    refine ⟨fun r hr => ?_, fun hc r hr hrd => ?_⟩
    · rcases mem_modify hr with hr | ⟨y, hy, rfl⟩
      · exact h.each r hr
      · exact rinv_drop (h.each y hy)
    · rcases mem_modify hr with hr | ⟨y, hy, rfl⟩
      · exact h.done hc r hr hrd
      · simp [Replica.dropReader] at hrd
  | commit =>
    simp only [Mem.step]
    split
    · exact ⟨h.each, fun hc => by cases hc⟩
    · exact h
  | commitStep =>
    simp only [Mem.step]
    split
    · split
      · rename_i hfl
        refine ⟨h.each, fun _ r hr hrd => ?_⟩
        have := List.all_eq_true.mp hfl r hr
        have hs := ((h.each r hr).open_ hrd).1
        simpa [hs] using this
      · rename_i hp _
        exact ⟨rinv_commit _ h.each, fun hc => by simp only at hc; rw [hp] at hc; cases hc⟩
    · exact h
  | abort =>
    simp only [Mem.step]
    split
    · exact ⟨h.each, fun hc => by cases hc⟩
    · exact h

theorem minv_run (es : List (Ev α)) {m : Mem α} (h : MInv m) : MInv (m.run es) := by
  induction es generalizing m with
  | nil => exact h
  | cons e es ih => exact ih (minv_step h e)

theorem minv_new (cap n : Nat) : MInv (Mem.new cap n : Mem α) where
  each := by
    intro r hr
    have := (List.mem_replicate.mp hr).2
    subst this
    exact ⟨by simp [Replica.new], fun _ => ⟨rfl, rfl⟩, by simp [Replica.new]⟩
  done := by simp [Mem.new]

/-- C18: at every point of every history, for any buffer size and number of readers, what a reader
has received is a prefix of what was written, in order; and as long as the reader is there,
nothing is lost: what it has received, what is buffered and what overflowed is exactly what was
written. -/
theorem C18_nothing_lost_or_reordered (cap n : Nat) (es : List (Ev α)) :
    ∀ r ∈ ((Mem.new cap n).run es).replicas,
      r.received <+: ((Mem.new cap n).run es).written ∧
      (r.reader = true →
        r.received ++ r.chan ++ r.overflow = ((Mem.new cap n).run es).written) := by
  intro r hr
  have h := (minv_run es (minv_new cap n)).each r hr
  exact ⟨h.prefix_, fun hrd => (h.open_ hrd).2⟩

/-- C18: if the stream was not aborted, a reader that sees the end of the stream has received
everything that was written. -/
theorem C18_end_of_stream_means_complete (cap n : Nat) (es : List (Ev α))
    (hna : ((Mem.new cap n).run es).phase ≠ .aborted) :
    ∀ r ∈ ((Mem.new cap n).run es).replicas, r.reader = true →
      ((Mem.new cap n).run es).atEnd r = true →
      r.received = ((Mem.new cap n).run es).written := by
  intro r hr hrd he
  have hm := minv_run es (minv_new (α := α) cap n)
  obtain ⟨hs, heq⟩ := (hm.each r hr).open_ hrd
  unfold Mem.atEnd at he
  simp only [Bool.and_eq_true, Bool.or_eq_true, hs, Bool.not_true, Bool.false_eq_true, false_or,
    beq_iff_eq, List.isEmpty_iff] at he
  obtain ⟨hc, hp⟩ := he
  have hcm : ((Mem.new cap n).run es).phase = .committed := by
    rcases hp with hp | hp
    · exact hp
    · exact absurd hp hna
  rw [hc, hm.done hcm r hr hrd] at heq
  simpa using heq

theorem read_many (k : Nat) (m : Mem α) (i : Nat) (r : Replica α) (hi : m.replicas[i]? = some r)
    (hrd : r.reader = true) (hk : r.chan.length ≤ k) :
    ∃ r', (m.run (List.replicate k (.read i))).replicas[i]? = some r' ∧ r'.reader = true ∧
      r'.chan = [] ∧ r'.received = r.received ++ r.chan ∧ r'.sender = r.sender ∧
      (m.run (List.replicate k (.read i))).phase = m.phase := by
  induction k generalizing m r with
  | zero =>
    have : r.chan = [] := by
      cases hc : r.chan with
      | nil => rfl
      | cons a l => rw [hc] at hk; simp at hk
    exact ⟨r, hi, hrd, this, by simp [this], rfl, rfl⟩
  | succ k ih =>
    have hstep : (m.step (.read i)).replicas[i]? = some r.read := by
      simp [Mem.step, hi]
    have hread : r.read = { r with chan := r.chan.drop 1, received := r.received ++ r.chan.take 1 } := by
      unfold Replica.read; rw [if_pos hrd]
    obtain ⟨r', h1, h2, h3, h4, h5, h6⟩ := ih (m.step (.read i)) r.read hstep
      (by rw [hread]; exact hrd) (by rw [hread]; simp; omega)
    refine ⟨r', h1, h2, h3, ?_, ?_, h6⟩
    · rw [h4, hread]
      simp only [List.append_assoc, List.take_append_drop]
    · rw [h5, hread]

/-- C18: after a commit, a reader that keeps reading receives everything and then sees the end. -/
theorem C18_committed_stream_can_be_read_completely (cap n : Nat) (es : List (Ev α)) (i : Nat)
    (r : Replica α) (hc : ((Mem.new cap n).run es).phase = .committed)
    (hr : ((Mem.new cap n).run es).replicas[i]? = some r) (hrd : r.reader = true) :
    ∃ k r', (((Mem.new cap n).run es).run (List.replicate k (.read i))).replicas[i]? = some r' ∧
      r'.received = ((Mem.new cap n).run es).written ∧
      (((Mem.new cap n).run es).run (List.replicate k (.read i))).atEnd r' = true := by
  have hm := minv_run es (minv_new (α := α) cap n)
  obtain ⟨r', h1, h2, h3, h4, h5, h6⟩ :=
    read_many r.chan.length ((Mem.new cap n).run es) i r hr hrd (Nat.le_refl _)
  refine ⟨r.chan.length, r', h1, ?_, ?_⟩
  · rw [h4]
    have hmem := List.mem_of_getElem? hr
    have := ((hm.each r hmem).open_ hrd).2
    rw [hm.done hc r hmem hrd, List.append_nil] at this
    exact this
  · unfold Mem.atEnd
    rw [h3, h6, hc]
    simp

example : (((Mem.new 1 2 : Mem Nat).run [.write 1, .write 2, .read 0, .write 3, .drop 1, .commit,
    .commitStep, .read 0, .commitStep, .read 0, .commitStep, .read 0, .commitStep]).replicas) =
    [⟨[], [], true, true, [1, 2, 3]⟩, ⟨[1], [], false, false, []⟩] := by decide

/-! ### A commit can always finish -/

/-- Reading every replica once makes room everywhere. -/
theorem readAll_room (m : Mem α) :
    ∃ es : List (Ev α), (∀ e ∈ es, ∃ i, e = .read i) ∧ (m.run es).replicas = m.replicas.map (·.read) ∧
      (m.run es).cap = m.cap ∧ (m.run es).phase = m.phase ∧ (m.run es).written = m.written := by
  have key : ∀ (k : Nat), k ≤ m.replicas.length → ∃ es : List (Ev α), (∀ e ∈ es, ∃ i, e = .read i) ∧
      (m.run es).replicas = (m.replicas.take k).map (·.read) ++ m.replicas.drop k ∧
      (m.run es).cap = m.cap ∧ (m.run es).phase = m.phase ∧ (m.run es).written = m.written := by
    intro k
    induction k with
    | zero => intro _; exact ⟨[], by simp, by simp [Mem.run], rfl, rfl, rfl⟩
    | succ k ih =>
      intro hk
      obtain ⟨es, h1, h2, h3, h4, h5⟩ := ih (by omega)
      refine ⟨es ++ [.read k], ?_, ?_, ?_, ?_, ?_⟩
      · intro e he
        rcases List.mem_append.mp he with he | he
        · exact h1 e he
        · exact ⟨k, by simpa using he⟩
      · have hrun : m.run (es ++ [.read k]) = (m.run es).step (.read k) := by
          simp [Mem.run, List.foldl_append]
        rw [hrun]
        simp only [Mem.step]
        rw [h2]
        apply List.ext_getElem?
        intro j
        rw [List.getElem?_modify]
        have hlk : k < m.replicas.length := by omega
        by_cases hj : k = j
        · subst hj
          have e1 : m.replicas[k]? = some m.replicas[k] := by simp [hlk]
          rw [List.getElem?_append_right (by simp), List.getElem?_append_left (by simp; omega)]
          simp [e1, Nat.min_eq_left (by omega : k ≤ m.replicas.length)]
        · rw [List.getElem?_append, List.getElem?_append]
          simp only [List.length_map, List.length_take, hj, if_false,
            Nat.min_eq_left (by omega : k ≤ m.replicas.length), Nat.min_eq_left hk]
          by_cases hlt : j < k
          · simp [hlt, show j < k + 1 by omega]
          · simp only [hlt, if_false, show ¬ j < k + 1 by omega]
            simp only [List.getElem?_drop]
            rw [show k + (j - k) = j by omega, show k + 1 + (j - (k + 1)) = j by omega]
            simp
      · rw [show m.run (es ++ [.read k]) = (m.run es).step (.read k) by
          simp [Mem.run, List.foldl_append]]
        exact h3
      · rw [show m.run (es ++ [.read k]) = (m.run es).step (.read k) by
          simp [Mem.run, List.foldl_append]]
        exact h4
      · rw [show m.run (es ++ [.read k]) = (m.run es).step (.read k) by
          simp [Mem.run, List.foldl_append]]
        exact h5
  obtain ⟨es, h1, h2, h3⟩ := key m.replicas.length (Nat.le_refl _)
  exact ⟨es, h1, by simpa using h2, h3⟩

/-- Batches still to be sent by the commit. -/
def pendingCount (rs : List (Replica α)) : Nat :=
  (rs.map fun r => if r.sender then r.overflow.length else 0).sum

theorem commitReplicas_decreases (cap : Nat) (rs : List (Replica α))
    (hroom : ∀ r ∈ rs, r.reader = true → r.chan.length < cap)
    (hn : (rs.all fun r => !r.sender || r.overflow.isEmpty) = false) :
    pendingCount (commitReplicas cap rs) < pendingCount rs := by
  induction rs with
  | nil => simp at hn
  | cons r rest ih =>
    unfold commitReplicas
    by_cases hc : r.sender = true ∧ r.overflow ≠ []
    · rw [if_pos hc]
      have hpos : 0 < r.overflow.length := List.length_pos_iff.mpr hc.2
      split
      · simp [pendingCount, hc.1]; omega
      · rename_i hrd
        rw [if_pos (hroom r (by simp) (by simpa using hrd))]
        simp [pendingCount, hc.1]; omega
    · rw [if_neg hc]
      have h1 : (!r.sender || r.overflow.isEmpty) = true := by
        by_cases hs : r.sender = true
        · have : r.overflow = [] := by
            by_contra hne; exact hc ⟨hs, hne⟩
          simp [this]
        · simp [hs]
      rw [List.all_cons, h1, Bool.true_and] at hn
      have := ih (fun x hx => hroom x (List.mem_cons_of_mem _ hx)) hn
      simp [pendingCount] at this ⊢
      omega

/-- C18: a commit is never stuck: from any state in which it is suspended, if the readers keep
reading, it finishes (with a buffer of at least one batch). -/
theorem C18_commit_can_finish (cap n : Nat) (hcap : 0 < cap) (es : List (Ev α))
    (hc : ((Mem.new cap n).run es).phase = .committing) :
    ∃ more : List (Ev α), (∀ e ∈ more, e = .commitStep ∨ ∃ i, e = .read i) ∧
      (((Mem.new cap n).run es).run more).phase = .committed := by
  have hm := minv_run es (minv_new (α := α) cap n)
  have hcap' : 0 < ((Mem.new cap n).run es : Mem α).cap := by
    have : ∀ (es : List (Ev α)) (m : Mem α), (m.run es).cap = m.cap := by
      intro es
      induction es with
      | nil => intro m; rfl
      | cons e es ih =>
        intro m
        show ((m.step e).run es).cap = m.cap
        rw [ih]
        cases e <;> simp only [Mem.step] <;> (try split) <;> (try split) <;> rfl
    rw [this]; exact hcap
  generalize (Mem.new cap n).run es = m at hm hc hcap'
  generalize hk : pendingCount m.replicas = k
  induction k using Nat.strong_induction_on generalizing m with
  | _ k ih =>
    by_cases hf : m.flushed = true
    · exact ⟨[.commitStep], by simp, by simp [Mem.run, Mem.step, hc, hf]⟩
    · obtain ⟨rs, h1, h2, h3, h4, h5⟩ := readAll_room m
      have hread : ∀ r : Replica α, r.read.sender = r.sender ∧ r.read.overflow = r.overflow := by
        intro r; unfold Replica.read; split <;> exact ⟨rfl, rfl⟩
      have hf' : (m.run rs).flushed = false := by
        have : (m.run rs).flushed = m.flushed := by
          unfold Mem.flushed
          rw [h2, List.all_map]
          congr 1
          funext r
          simp only [Function.comp]
          rw [(hread r).1, (hread r).2]
        rw [this]; simpa using hf
      have hpc : pendingCount (m.run rs).replicas = pendingCount m.replicas := by
        unfold pendingCount
        rw [h2, List.map_map]
        congr 1
        apply List.map_congr_left
        intro r _
        simp only [Function.comp]
        rw [(hread r).1, (hread r).2]
      have hstep : (m.run rs).step .commitStep =
          { m.run rs with replicas := commitReplicas (m.run rs).cap (m.run rs).replicas } := by
        simp [Mem.step, h4, hc, hf']
      have hlt : pendingCount (commitReplicas (m.run rs).cap (m.run rs).replicas) < k := by
        rw [← hk, ← hpc]
        apply commitReplicas_decreases
        · intro r hr hrd
          rw [h2] at hr
          obtain ⟨r0, hr0, rfl⟩ := List.mem_map.mp hr
          have hr0d : r0.reader = true := by
            unfold Replica.read at hrd
            split at hrd
            · assumption
            · exact hrd
          have := (hm.each r0 hr0).room
          unfold Replica.read
          rw [if_pos hr0d, h3]
          simp
          omega
        · exact hf'
      have hm' := minv_step (minv_run rs hm) .commitStep
      obtain ⟨more, g1, g2⟩ := ih _ hlt _ hm' (by rw [hstep]; show (m.run rs).phase = _; rw [h4]; exact hc)
        (by rw [hstep]; show 0 < (m.run rs).cap; rw [h3]; exact hcap') (by rw [hstep])
      refine ⟨rs ++ .commitStep :: more, ?_, ?_⟩
      · intro e he
        rcases List.mem_append.mp he with he | he
        · exact Or.inr (h1 e he)
        · rcases List.mem_cons.mp he with rfl | he
          · exact Or.inl rfl
          · exact g1 e he
      · have : m.run (rs ++ .commitStep :: more) = ((m.run rs).step .commitStep).run more := by
          simp [Mem.run, List.foldl_append]
        rw [this]; exact g2

example : ((Mem.new 1 2 : Mem Nat).run [.write 1, .write 2, .commit, .commitStep]).phase =
    .committing := by decide

/-! ### C34 -/

theorem write_many (bs : List α) (m : Mem α) (hp : m.phase = .writing) (pre : List α)
    (hr : m.replicas = [⟨pre, [], true, true, []⟩]) (hl : pre.length + bs.length ≤ m.cap) :
    (m.run (bs.map .write)).replicas = [⟨pre ++ bs, [], true, true, []⟩] ∧
      (m.run (bs.map .write)).phase = .writing := by
  induction bs generalizing m pre with
  | nil => exact ⟨by simpa [Mem.run] using hr, hp⟩
  | cons b bs ih =>
    simp only [List.length_cons] at hl
    have hs : m.step (.write b) = m.write b := by simp [Mem.step, hp]
    have hw : (m.write b).replicas = [⟨pre ++ [b], [], true, true, []⟩] := by
      unfold Mem.write
      rw [hr]
      simp [Replica.write, flush, show pre.length < m.cap by omega]
    have := ih (m.write b) hp (pre ++ [b]) hw (by
      show (pre ++ [b]).length + bs.length ≤ m.cap
      simp; omega)
    show ((m.step (.write b)).run (bs.map .write)).replicas = _ ∧
      ((m.step (.write b)).run (bs.map .write)).phase = _
    rw [hs]
    refine ⟨by rw [this.1]; simp, this.2⟩

theorem run_append (a b : List (Ev α)) (m : Mem α) : m.run (a ++ b) = (m.run a).run b := by
  simp [Mem.run, List.foldl_append]

/-- C34 is violated: a reader cannot tell a task that failed after writing `bs` from a task whose
complete output is `bs`: in both cases it receives `bs` and then the regular end of the stream. -/
theorem C34_failed_producer_looks_complete (cap : Nat) (bs : List α) (h : bs.length ≤ cap) :
    let reads : List (Ev α) := List.replicate bs.length (.read 0)
    let failed := (Mem.new cap 1).run (bs.map .write ++ .abort :: reads)
    let complete := (Mem.new cap 1).run (bs.map .write ++ .commit :: .commitStep :: reads)
    (∃ r, failed.replicas = [r] ∧ r.received = bs ∧ failed.atEnd r = true) ∧
    (∃ r, complete.replicas = [r] ∧ r.received = bs ∧ complete.atEnd r = true) := by
  intro reads failed complete
  obtain ⟨h1, h2⟩ := write_many bs (Mem.new cap 1) rfl [] rfl (by simpa [Mem.new] using h)
  simp only [List.nil_append] at h1
  have one : ∀ (m : Mem α) (ph : Phase), m.replicas = [⟨bs, [], true, true, []⟩] → m.phase = ph →
      ph = .committed ∨ ph = .aborted →
      ∃ r, (m.run reads).replicas = [r] ∧ r.received = bs ∧ (m.run reads).atEnd r = true := by
    intro m ph hr hph hor
    obtain ⟨r', g1, g2, g3, g4, g5, g6⟩ := read_many bs.length m 0 ⟨bs, [], true, true, []⟩
      (by rw [hr]; rfl) rfl (Nat.le_refl _)
    refine ⟨r', ?_, by simpa using g4, ?_⟩
    · have hlen : (m.run reads).replicas.length = 1 := by
        have : ∀ (k : Nat) (m : Mem α), (m.run (List.replicate k (.read 0))).replicas.length =
            m.replicas.length := by
          intro k
          induction k with
          | zero => intro m; rfl
          | succ k ih =>
            intro m
            show ((m.step (.read 0)).run (List.replicate k (.read 0))).replicas.length = _
            rw [ih]
            simp [Mem.step]
        rw [this, hr]; rfl
      match hl : (m.run reads).replicas, hlen with
      | [x], _ =>
        have g1' : (m.run reads).replicas[0]? = some r' := g1
        rw [hl] at g1'
        simp at g1'
        rw [g1']
    · unfold Mem.atEnd
      rw [g3, g6, hph]
      rcases hor with rfl | rfl <;> simp
  constructor
  · have e : failed = (((Mem.new cap 1).run (bs.map .write)).step .abort).run reads := by
      show (Mem.new cap 1).run (bs.map .write ++ .abort :: reads) = _
      rw [run_append]; rfl
    rw [e]
    apply one _ .aborted _ _ (Or.inr rfl)
    · simp [Mem.step, h2, h1]
    · simp [Mem.step, h2]
  · have e : complete =
        ((((Mem.new cap 1).run (bs.map .write)).step .commit).step .commitStep).run reads := by
      show (Mem.new cap 1).run (bs.map .write ++ .commit :: .commitStep :: reads) = _
      rw [run_append]; rfl
    rw [e]
    apply one _ .committed _ _ (Or.inl rfl)
    · simp [Mem.step, h2, h1, Mem.flushed]
    · simp [Mem.step, h2, h1, Mem.flushed]

/-- C34, the part that holds: the end of a stream whose producer was not aborted is genuine.
Missing: a reader has no way to know whether the producer was aborted
(`C34_failed_producer_looks_complete`). -/
theorem C34_end_of_data_is_genuine_partial (cap n : Nat) (es : List (Ev α))
    (hna : Ev.abort ∉ es) :
    ∀ r ∈ ((Mem.new cap n).run es).replicas, r.reader = true →
      ((Mem.new cap n).run es).atEnd r = true →
      r.received = ((Mem.new cap n).run es).written := by
  apply C18_end_of_stream_means_complete
  have key : ∀ (es : List (Ev α)) (m : Mem α), Ev.abort ∉ es → m.phase ≠ .aborted →
      (m.run es).phase ≠ .aborted := by
    intro es
    induction es with
    | nil => intro m _ h; exact h
    | cons e es ih =>
      intro m hn hp
      apply ih (m.step e) (fun h => hn (List.mem_cons_of_mem _ h))
      cases e with
      | abort => exact absurd (List.mem_cons_self ..) hn
      | write b => simp only [Mem.step]; split <;> simp [Mem.write, hp]
      | read i => exact hp
      | drop i => exact hp
      | commit => simp only [Mem.step]; split <;> simp [hp]
      | commitStep => simp only [Mem.step]; split <;> (try split) <;> simp [hp]
  exact key es _ hna (by simp [Mem.new])

end Mem

/-! ## C16: replicas and readers -/

/-- What happens to one stream entry: readers come and the producer creates it, in any order. -/
def entryRun (replicas : Nat) : List Bool → Entry → Option Entry
  | [], e => some e
  | true :: ops, e => (e.create replicas).bind (entryRun replicas ops)
  | false :: ops, e => e.fetch.bind (entryRun replicas ops)

/-- C16: as many readers as there are replicas can open a stream, however their requests
interleave with the creation of the stream by the producer (`true` in `ops`; at most once). -/
theorem C16_every_reader_gets_a_replica (replicas : Nat) (ops : List Bool)
    (hc : ops.count true ≤ 1) (hf : ops.count false ≤ replicas) :
    (entryRun replicas ops .absent).isSome = true := by
  have created : ∀ (ops : List Bool) (left : Nat), ops.count true = 0 → ops.count false ≤ left →
      (entryRun replicas ops (.created left)).isSome = true := by
    intro ops
    induction ops with
    | nil => intro left _ _; rfl
    | cons b ops ih =>
      intro left h1 h2
      cases b with
      | true => simp at h1
      | false =>
        simp only [List.count_cons_self] at h2
        obtain ⟨l, rfl⟩ : ∃ l, left = l + 1 := ⟨left - 1, by omega⟩
        simp only [entryRun, Entry.fetch, Option.bind_some]
        exact ih l (by simpa using h1) (by omega)
  have pending : ∀ (ops : List Bool) (n : Nat), ops.count true ≤ 1 →
      ops.count false + n ≤ replicas →
      (entryRun replicas ops (.pending n)).isSome = true := by
    intro ops
    induction ops with
    | nil => intro n _ _; rfl
    | cons b ops ih =>
      intro n h1 h2
      cases b with
      | true =>
        simp only [List.count_cons_self] at h1
        simp only [entryRun, Entry.create, Option.bind_some]
        exact created ops _ (by omega) (by simp at h2; omega)
      | false =>
        simp only [List.count_cons_self] at h2
        simp only [entryRun, Entry.fetch, Option.bind_some]
        exact ih (n + 1) (by simpa using h1) (by omega)
  cases ops with
  | nil => rfl
  | cons b ops =>
    cases b with
    | true =>
      simp only [List.count_cons_self] at hc
      simp only [entryRun, Entry.create, Option.bind_some]
      exact created ops _ (by omega) (by simpa using hf)
    | false =>
      simp only [List.count_cons_self] at hf
      simp only [entryRun, Entry.fetch, Option.bind_some]
      exact pending ops 1 (by simpa using hc) (by omega)

/-- C16: once the producer has created a stream, a reader beyond the number of replicas is refused. -/
theorem C16_surplus_reader_is_refused (replicas n : Nat) (h : replicas < n) :
    entryRun replicas (true :: List.replicate n false) .absent = none := by
  simp only [entryRun, Entry.create, Option.bind_some]
  induction n generalizing replicas with
  | zero => omega
  | succ n ih =>
    rw [List.replicate_succ, entryRun]
    cases replicas with
    | zero => rfl
    | succ r =>
      have key : ∀ (a b : Nat) (l : List Bool), true ∉ l → ∀ e, entryRun a l e = entryRun b l e := by
        intro a b l
        induction l with
        | nil => intro _ e; rfl
        | cons x l ih =>
          intro hl e
          cases x with
          | true => simp at hl
          | false =>
            simp only [entryRun]
            congr 1
            funext e
            exact ih (by simpa using hl) e
      simp only [Entry.fetch, Option.bind_some]
      rw [key (r + 1) r _ (by simp)]
      exact ih r (by omega)

example : entryRun 3 [false, true, false, false] .absent = some (.created 0) := by decide

/-! ## C29: several channels -/

section Multi

variable {α : Type}

/-- Batches written to a channel in a history. -/
def Spec.writtenTo (ch : Nat) (es : List (MEv α)) : List α :=
  es.filterMap fun
    | .write c b => if c = ch then some b else none
    | _ => none

/-- Invariant of one channel. -/
structure CInv (written : List α) (c : Mem α × Bool) : Prop where
  each : ∀ r ∈ c.1.replicas, r.reader = true →
    c.2 = false ∧ r.sender = true ∧ r.received ++ r.chan ++ r.overflow = written
  room : ∀ r ∈ c.1.replicas, r.chan.length ≤ c.1.cap
  phase : c.1.phase = .writing
  gone : ∀ r ∈ c.1.replicas, r.received <+: written

theorem cinv_step (m : Multi α) (e : MEv α) (w : Nat → List α)
    (h : ∀ (ch : Nat) (c : Mem α × Bool), m.chans[ch]? = some c → CInv (w ch) c) :
    ∀ (ch : Nat) (c : Mem α × Bool), (m.step e).chans[ch]? = some c →
      CInv (w ch ++ Spec.writtenTo ch [e]) c := by
  intro ch c hc
  cases e with
  | write wc b =>
    simp only [Multi.step, Multi.write] at hc
    cases hm : m.chans[wc]? with
    | none =>
      rw [hm] at hc
      simp only [Option.map_none, Option.getD_none] at hc
      have hne : wc ≠ ch := by rintro rfl; rw [hm] at hc; cases hc
      simp only [Spec.writtenTo, List.filterMap_cons, hne, if_false, List.filterMap_nil,
        List.append_nil]
      exact h ch c hc
    | some sd =>
      obtain ⟨s, d⟩ := sd
      rw [hm] at hc
      simp only [Option.map_some, Option.getD_some] at hc
      have hci := h wc (s, d) hm
      by_cases hch : wc = ch
      · subst hch
        simp only [Spec.writtenTo, List.filterMap_cons, if_true, List.filterMap_nil]
        cases d with
        | true =>
          simp only [if_true] at hc
          rw [hm] at hc
          obtain rfl := Option.some.inj hc
          refine ⟨fun r hr hrd => ?_, hci.room, hci.phase,
            fun r hr => (hci.gone r hr).trans (List.prefix_append _ _)⟩
          have := (hci.each r hr hrd).1
          cases this
        | false =>
          simp only [Bool.false_eq_true, if_false] at hc
          have hlt : wc < m.chans.length := (List.getElem?_eq_some_iff.mp hm).1
          rw [List.getElem?_set_self hlt] at hc
          obtain rfl := Option.some.inj hc
          have hri : ∀ r ∈ s.replicas, RInv s.cap (w wc) r := fun r hr =>
            ⟨hci.gone r hr, fun hrd => (hci.each r hr hrd).2, hci.room r hr⟩
          refine ⟨fun r hr hrd => ?_, fun r hr => ?_, hci.phase, fun r hr => ?_⟩
          · obtain ⟨r0, hr0, rfl⟩ := List.mem_map.mp hr
            have hw := rinv_write (hri r0 hr0) b
            obtain ⟨hs, heq⟩ := hw.open_ hrd
            refine ⟨?_, hs, heq⟩
            simp only [Mem.closedAfterWrite, Bool.not_eq_false', List.any_eq_true]
            exact ⟨_, hr, by simp [Replica.active, hs, hrd]⟩
          · obtain ⟨r0, hr0, rfl⟩ := List.mem_map.mp hr
            exact (rinv_write (hri r0 hr0) b).room
          · obtain ⟨r0, hr0, rfl⟩ := List.mem_map.mp hr
            exact (rinv_write (hri r0 hr0) b).prefix_
      · simp only [Spec.writtenTo, List.filterMap_cons, hch, if_false, List.filterMap_nil,
          List.append_nil]
        apply h ch c
        split at hc
        · exact hc
        · rwa [List.getElem?_set_ne hch] at hc
  | read wc i =>
    simp only [Spec.writtenTo, List.filterMap_cons, List.filterMap_nil, List.append_nil]
    simp only [Multi.step, List.getElem?_modify] at hc
    obtain ⟨c0, h0, he⟩ := Option.map_eq_some_iff.mp hc
    have hci := h ch c0 h0
    split at he
    · subst he
      refine ⟨fun r hr hrd => ?_, fun r hr => ?_, hci.phase, fun r hr => ?_⟩
      all_goals
        have hri : ∀ r ∈ c0.1.replicas, RInv c0.1.cap (w ch) r := fun r hr =>
          ⟨hci.gone r hr, fun hrd => (hci.each r hr hrd).2, hci.room r hr⟩
        rcases mem_modify hr with hr | ⟨y, hy, rfl⟩
      · exact hci.each r hr hrd
      · have hyd : y.reader = true := by
          unfold Replica.read at hrd
          split at hrd
          · assumption
          · exact hrd
        exact ⟨(hci.each y hy hyd).1, (rinv_read (hri y hy)).open_ hrd⟩
      · exact hci.room r hr
      · exact (rinv_read (hri y hy)).room
      · exact hci.gone r hr
      · exact (rinv_read (hri y hy)).prefix_
    · subst he; exact hci
  | drop wc i =>
    simp only [Spec.writtenTo, List.filterMap_cons, List.filterMap_nil, List.append_nil]
    simp only [Multi.step, List.getElem?_modify] at hc
    obtain ⟨c0, h0, he⟩ := Option.map_eq_some_iff.mp hc
    have hci := h ch c0 h0
    split at he
    · subst he
      refine ⟨fun r hr hrd => ?_, fun r hr => ?_, hci.phase, fun r hr => ?_⟩
      all_goals rcases mem_modify hr with hr | ⟨y, hy, rfl⟩
      · exact hci.each r hr hrd
      · simp [Replica.dropReader] at hrd
      · exact hci.room r hr
      · exact hci.room y hy
      · exact hci.gone r hr
      · exact hci.gone y hy
    · subst he; exact hci

theorem cinv_run (es : List (MEv α)) (m : Multi α) (w : Nat → List α)
    (h : ∀ (ch : Nat) (c : Mem α × Bool), m.chans[ch]? = some c → CInv (w ch) c) :
    ∀ (ch : Nat) (c : Mem α × Bool), (m.run es).chans[ch]? = some c →
      CInv (w ch ++ Spec.writtenTo ch es) c := by
  induction es generalizing m w with
  | nil => simpa [Spec.writtenTo, Multi.run] using h
  | cons e es ih =>
    have h1 := ih (m.step e) (fun ch => w ch ++ Spec.writtenTo ch [e]) (cinv_step m e w h)
    intro ch c hc
    have := h1 ch c hc
    have e1 : Spec.writtenTo ch (e :: es) = Spec.writtenTo ch [e] ++ Spec.writtenTo ch es := by
      have : e :: es = [e] ++ es := rfl
      rw [this]
      simp only [Spec.writtenTo, List.filterMap_append]
    rw [e1, ← List.append_assoc]
    exact this

theorem cinv_new (cap replicas channels ch : Nat) (c : Mem α × Bool)
    (h : (Multi.new cap replicas channels : Multi α).chans[ch]? = some c) : CInv [] c := by
  have := List.mem_of_getElem? h
  obtain ⟨_, rfl⟩ := List.mem_replicate.mp this
  refine ⟨fun r hr _ => ?_, fun r hr => ?_, rfl, fun r hr => ?_⟩
  all_goals
    have := (List.mem_replicate.mp hr).2
    subst this
    simp [Replica.new]

/-- C29: the writer reports that it can stop early only when every reader of every channel has gone
away. -/
theorem C29_stops_only_when_nobody_reads (cap replicas channels : Nat) (es : List (MEv α))
    (ch : Nat) (b : α) (m : Multi α)
    (h : ((Multi.new cap replicas channels).run es).write ch b = some (true, m)) :
    ∀ (c : Nat) (s : Mem α × Bool), ((Multi.new cap replicas channels).run es).chans[c]? = some s →
      ∀ r ∈ s.1.replicas, r.reader = false := by
  intro c s hs r hr
  have hinv := cinv_run es (Multi.new cap replicas channels) (fun _ => [])
    (fun ch c hc => cinv_new cap replicas channels ch c hc)
  have hafter := cinv_step ((Multi.new cap replicas channels).run es) (.write ch b) _ hinv
  have hm : ((Multi.new cap replicas channels).run es).step (.write ch b) = m := by
    simp [Multi.step, h]
  rw [hm] at hafter
  by_contra hrd
  have hrd : r.reader = true := by simpa using hrd
  -- the channel after the write
  have hall : m.chans.all (·.2) = true := by
    unfold Multi.write at h
    split at h
    · cases h
    · simp only [Option.some.injEq, Prod.mk.injEq] at h
      rw [← h.2]; exact h.1
  unfold Multi.write at h
  split at h
  · cases h
  · rename_i s0 d0 h0
    simp only [Option.some.injEq, Prod.mk.injEq] at h
    obtain ⟨_, rfl⟩ := h
    by_cases hcc : ch = c
    · subst hcc
      rw [h0] at hs
      obtain rfl := Option.some.inj hs
      have hd := (hinv ch (s0, d0) h0).each r hr hrd
      have hd0 : d0 = false := hd.1
      subst hd0
      simp only [Bool.false_eq_true, if_false] at hall hafter
      have hlt : ch < ((Multi.new cap replicas channels).run es : Multi α).chans.length :=
        (List.getElem?_eq_some_iff.mp h0).1
      have hget : (((Multi.new cap replicas channels).run es : Multi α).chans.set ch
          (s0.write b, (s0.write b).closedAfterWrite))[ch]? =
          some (s0.write b, (s0.write b).closedAfterWrite) := List.getElem?_set_self hlt
      have hc2 := List.all_eq_true.mp hall _ (List.mem_of_getElem? hget)
      have hw : r.write s0.cap b ∈ (s0.write b).replicas := List.mem_map.mpr ⟨r, hr, rfl⟩
      have hrw : (r.write s0.cap b).reader = true := by
        unfold Replica.write
        simp only [hrd, Bool.true_eq_false, if_false]
        split
        · exact hrd
        · split
          · split <;> rfl
          · rfl
      have := ((hafter ch _ hget).each _ hw hrw).1
      simp only at this hc2
      rw [this] at hc2; cases hc2
    · have hs' : (if d0 = true then ((Multi.new cap replicas channels).run es : Multi α).chans
          else ((Multi.new cap replicas channels).run es : Multi α).chans.set ch
            (s0.write b, (s0.write b).closedAfterWrite))[c]? = some s := by
        split
        · exact hs
        · rw [List.getElem?_set_ne hcc]; exact hs
      have hc2 := List.all_eq_true.mp hall _ (List.mem_of_getElem? hs')
      have := ((hinv c s hs).each r hr hrd).1
      rw [this] at hc2; cases hc2

/-- C29: a reader that is still there loses nothing, whatever happened to the other channels
and readers: what it received and what is buffered for it is everything written to its
channel. -/
theorem C29_remaining_readers_get_everything (cap replicas channels : Nat) (es : List (MEv α))
    (ch : Nat) (s : Mem α × Bool)
    (hs : ((Multi.new cap replicas channels).run es).chans[ch]? = some s) :
    ∀ r ∈ s.1.replicas, r.reader = true →
      r.received ++ r.chan ++ r.overflow = Spec.writtenTo ch es := by
  intro r hr hrd
  have hinv := cinv_run es (Multi.new cap replicas channels) (fun _ => [])
    (fun ch c hc => cinv_new cap replicas channels ch c hc)
  have := ((hinv ch s hs).each r hr hrd).2.2
  simpa using this

/-- C29: a write to a channel that does not exist is an error, not a silent loss. -/
theorem C29_unknown_channel_is_an_error (m : Multi α) (ch : Nat) (b : α) :
    m.write ch b = none ↔ m.chans.length ≤ ch := by
  unfold Multi.write
  constructor
  · intro h
    split at h
    · rename_i hn; exact List.getElem?_eq_none_iff.mp hn
    · cases h
  · intro h
    rw [List.getElem?_eq_none_iff.mpr h]

example : (((Multi.new 1 1 2).run [.write 0 5, .drop 0 0, .write 1 6, .write 0 7, .drop 1 0]).write 1
    (8 : Nat)).map (·.1) = some true ∧
    (((Multi.new 1 1 2).run [.write 0 5, .drop 0 0, .write 1 6, .write 0 7]).write 1
    (8 : Nat)).map (·.1) = some false := by decide

end Multi

/-! ## C19: storage streams -/

/-- Value of a list of digits. -/
def val : List Nat → Nat
  | [] => 0
  | d :: ds => d * 10 ^ ds.length + val ds

theorem val_lt (l : List Nat) (h : ∀ d ∈ l, d < 10) : val l < 10 ^ l.length := by
  induction l with
  | nil => simp [val]
  | cons d ds ih =>
    have h1 := h d (by simp)
    have h2 := ih fun x hx => h x (List.mem_cons_of_mem _ hx)
    unfold val
    rw [List.length_cons, pow_succ]
    have : d * 10 ^ ds.length ≤ 9 * 10 ^ ds.length := Nat.mul_le_mul_right _ (by omega)
    omega

theorem lexLe_iff (a b : List Nat) (hl : a.length = b.length) (ha : ∀ d ∈ a, d < 10)
    (hb : ∀ d ∈ b, d < 10) : lexLe a b = true ↔ val a ≤ val b := by
  induction a generalizing b with
  | nil =>
    cases b with
    | nil => simp [lexLe, val]
    | cons y ys => simp at hl
  | cons x xs ih =>
    cases b with
    | nil => simp at hl
    | cons y ys =>
      simp only [List.length_cons, Nat.add_right_cancel_iff] at hl
      have hx := val_lt xs fun d hd => ha d (List.mem_cons_of_mem _ hd)
      have hy := val_lt ys fun d hd => hb d (List.mem_cons_of_mem _ hd)
      have ih' := ih ys hl (fun d hd => ha d (List.mem_cons_of_mem _ hd))
        (fun d hd => hb d (List.mem_cons_of_mem _ hd))
      unfold lexLe val
      simp only [Bool.or_eq_true, decide_eq_true_eq, Bool.and_eq_true, ih']
      rw [hl] at hx ⊢
      generalize hP : 10 ^ ys.length = P at *
      constructor
      · rintro (h | ⟨rfl, h⟩)
        · have : (x + 1) * P ≤ y * P := Nat.mul_le_mul_right _ h
          rw [Nat.succ_mul] at this
          omega
        · omega
      · intro h
        rcases Nat.lt_trichotomy x y with h1 | h1 | h1
        · exact Or.inl h1
        · subst h1; exact Or.inr ⟨rfl, by omega⟩
        · exfalso
          have : (y + 1) * P ≤ x * P := Nat.mul_le_mul_right _ h1
          rw [Nat.succ_mul] at this
          omega

theorem val_reverse (l : List Nat) : val l = Nat.ofDigits 10 l.reverse := by
  induction l with
  | nil => rfl
  | cons d ds ih =>
    rw [List.reverse_cons, Nat.ofDigits_append, val, ih]
    simp [Nat.mul_comm]
    omega

theorem val_zeros (k : Nat) (l : List Nat) : val (List.replicate k 0 ++ l) = val l := by
  induction k with
  | zero => simp
  | succ k ih => rw [List.replicate_succ, List.cons_append, val, ih]; omega

theorem val_padded (n : Nat) : val (padded n) = n := by
  unfold padded
  rw [val_zeros, val_reverse, List.reverse_reverse, Nat.ofDigits_digits]

theorem padded_digits (n : Nat) : ∀ d ∈ padded n, d < 10 := by
  intro d hd
  rcases List.mem_append.mp hd with hd | hd
  · have := (List.mem_replicate.mp hd).2; omega
  · exact Nat.digits_lt_base (by omega) (List.mem_reverse.mp hd)

theorem padded_length (n : Nat) (h : n < 10 ^ 20) : (padded n).length = 20 := by
  have := (Nat.digits_length_le_iff (b := 10) (by omega) n).mpr h
  unfold padded
  simp
  omega

theorem padded_inj {a b : Nat} (h : padded a = padded b) : a = b := by
  rw [← val_padded a, ← val_padded b, h]

theorem lexLe_total (a b : List Nat) : (lexLe a b || lexLe b a) = true := by
  induction a generalizing b with
  | nil => simp [lexLe]
  | cons x xs ih =>
    cases b with
    | nil => simp [lexLe]
    | cons y ys =>
      unfold lexLe
      have := ih ys
      simp only [Bool.or_eq_true, decide_eq_true_eq, Bool.and_eq_true] at this ⊢
      rcases Nat.lt_trichotomy x y with h | h | h
      · exact Or.inl (Or.inl h)
      · subst h
        rcases this with h | h
        · exact Or.inl (Or.inr ⟨rfl, h⟩)
        · exact Or.inr (Or.inr ⟨rfl, h⟩)
      · exact Or.inr (Or.inl h)

theorem lexLe_trans (a b c : List Nat) (h1 : lexLe a b = true) (h2 : lexLe b c = true) :
    lexLe a c = true := by
  induction a generalizing b c with
  | nil => simp [lexLe]
  | cons x xs ih =>
    cases b with
    | nil => simp [lexLe] at h1
    | cons y ys =>
      cases c with
      | nil => simp [lexLe] at h2
      | cons z zs =>
        unfold lexLe at h1 h2 ⊢
        simp only [Bool.or_eq_true, decide_eq_true_eq, Bool.and_eq_true] at h1 h2 ⊢
        rcases h1 with h1 | ⟨rfl, h1⟩
        · rcases h2 with h2 | ⟨rfl, h2⟩
          · exact Or.inl (by omega)
          · exact Or.inl h1
        · rcases h2 with h2 | ⟨rfl, h2⟩
          · exact Or.inl h2
          · exact Or.inr ⟨rfl, ih ys zs h1 h2⟩

section Storage

variable {α : Type}

/-- The files of a directory for given chunks. -/
def chunkFiles (dir : Nat) (chunks : List (List α)) : List (File α) :=
  chunks.zipIdx.map fun x => ⟨dir, padded x.2, x.1⟩

theorem filter_other (store : List (File α)) (dir : Nat) (name : List Nat) (d : Nat) (hd : d ≠ dir) :
    (store.filter (fun f => f.dir ≠ dir ∨ f.name ≠ name)).filter (fun f => f.dir = d) =
      store.filter fun f => f.dir = d := by
  rw [List.filter_filter]
  apply List.filter_congr
  intro f _
  by_cases h : f.dir = d
  · simp [h, hd]
  · simp [h]

/-- State of the sink and the store while writing. -/
structure SInv (store0 : List (File α)) (dir : Nat) (written : List α) (s : Sink α)
    (store : List (File α)) : Prop where
  dir_ : s.dir = dir
  files : ∃ chunks : List (List α), (store.filter fun f => f.dir = dir) = chunkFiles dir chunks ∧
    chunks.flatten ++ s.cur = written ∧ s.index = chunks.length ∧ chunks.length ≤ written.length ∧
    ([] : List α) ∉ chunks
  other : ∀ d, d ≠ dir → (store.filter fun f => f.dir = d) = store0.filter fun f => f.dir = d

theorem chunks_le (chunks : List (List α)) (h : ([] : List α) ∉ chunks) :
    chunks.length ≤ chunks.flatten.length := by
  induction chunks with
  | nil => simp
  | cons c cs ih =>
    have hc : c ≠ [] := fun he => h (by simp [he])
    have := ih fun hm => h (List.mem_cons_of_mem _ hm)
    have : 0 < c.length := List.length_pos_iff.mpr hc
    simp only [List.length_cons, List.flatten_cons, List.length_append]
    omega

theorem sinv_flush {store0 : List (File α)} {dir : Nat} {written : List α} {s : Sink α}
    {store : List (File α)} (h : SInv store0 dir written s store) :
    SInv store0 dir written (s.flush store).1 (s.flush store).2 ∧ (s.flush store).1.cur = [] := by
  unfold Sink.flush
  split
  · rename_i hc; exact ⟨h, hc⟩
  · rename_i hc
    obtain ⟨chunks, hf, hw, hi, hle, hne⟩ := h.files
    refine ⟨⟨h.dir_, ⟨chunks ++ [s.cur], ?_, ?_, ?_, ?_, ?_⟩, ?_⟩, rfl⟩
    · simp only [List.filter_append]
      have h1 : (store.filter (fun f => f.dir ≠ s.dir ∨ f.name ≠ padded s.index)).filter
          (fun f => f.dir = dir) = store.filter fun f => f.dir = dir := by
        rw [List.filter_filter]
        apply List.filter_congr
        intro f hfm
        by_cases hd : f.dir = dir
        · have hmem : f ∈ store.filter fun f => f.dir = dir := by
            rw [List.mem_filter]; simp [hfm, hd]
          rw [hf] at hmem
          obtain ⟨x, hx, rfl⟩ := List.mem_map.mp hmem
          have hlt : x.2 < chunks.length := by
            have := List.mem_zipIdx_iff_getElem?.mp hx
            exact (List.getElem?_eq_some_iff.mp this).1
          have : padded x.2 ≠ padded s.index := by
            intro he; have := padded_inj he; omega
          simp [this]
        · simp [hd]
      rw [h1, hf]
      simp [chunkFiles, h.dir_, hi, List.zipIdx_append]
    · simp [← hw]
    · simp [hi]
    · have hfl := chunks_le (chunks ++ [s.cur]) (by
        simp only [List.mem_append, List.mem_singleton, not_or]
        exact ⟨hne, fun he => hc he.symm⟩)
      have : (chunks ++ [s.cur]).flatten = written := by simp [← hw]
      rw [this] at hfl
      exact hfl
    · simp only [List.mem_append, List.mem_singleton, not_or]
      exact ⟨hne, fun he => hc he.symm⟩
    · intro d hd
      simp only [List.filter_append]
      have hs : s.dir = dir := h.dir_
      rw [hs, filter_other store dir _ d hd, h.other d hd]
      have : ¬ dir = d := fun he => hd he.symm
      simp [this]

theorem sinv_write {store0 : List (File α)} {dir : Nat} {written : List α} {s : Sink α}
    {store : List (File α)} (size : List α → Nat) (maxSize : Nat) (b : α)
    (h : SInv store0 dir written s store) :
    SInv store0 dir (written ++ [b]) (s.write size maxSize b store).1
      (s.write size maxSize b store).2 := by
  have h' : SInv store0 dir (written ++ [b]) { s with cur := s.cur ++ [b] } store := by
    obtain ⟨chunks, hf, hw, hi, hle, hne⟩ := h.files
    exact ⟨h.dir_, ⟨chunks, hf, by simp [← hw], hi, by simp; omega, hne⟩, h.other⟩
  unfold Sink.write
  split
  · exact (sinv_flush h').1
  · exact h'

theorem sinv_writeAll (size : List α → Nat) (maxSize : Nat) (bs : List α)
    {store0 : List (File α)} {dir : Nat} {written : List α} {s : Sink α} {store : List (File α)}
    (h : SInv store0 dir written s store) :
    SInv store0 dir (written ++ bs) (s.writeAll size maxSize bs store).1
      (s.writeAll size maxSize bs store).2 := by
  induction bs generalizing s store written with
  | nil => simpa [Sink.writeAll] using h
  | cons b bs ih =>
    have := ih (sinv_write size maxSize b h)
    rw [List.append_assoc] at this
    exact this

theorem readDir_chunks (dir : Nat) (chunks : List (List α)) (hn : chunks.length < 10 ^ 20)
    (store listing : List (File α)) (hp : listing.Perm store)
    (hf : (store.filter fun f => f.dir = dir) = chunkFiles dir chunks) :
    readDir dir listing = chunks.flatten := by
  have hperm : ((listing.filter fun f => f.dir = dir).mergeSort fun a b => lexLe a.name b.name).Perm
      (chunkFiles dir chunks) := by
    rw [← hf]
    exact (List.mergeSort_perm _ _).trans (hp.filter _)
  have hlt : ∀ f ∈ chunkFiles dir chunks, ∃ i, i < chunks.length ∧ f.name = padded i ∧
      chunks[i]? = some f.batches ∧ f.dir = dir := by
    intro f hf
    obtain ⟨x, hx, rfl⟩ := List.mem_map.mp hf
    have := List.mem_zipIdx_iff_getElem?.mp hx
    exact ⟨x.2, (List.getElem?_eq_some_iff.mp this).1, rfl, this, rfl⟩
  have hsorted : (chunkFiles dir chunks).Pairwise fun a b => lexLe a.name b.name = true := by
    unfold chunkFiles
    rw [List.pairwise_map, List.pairwise_iff_getElem]
    intro i j hi hj hij
    simp only [List.length_zipIdx] at hi hj
    simp only [List.getElem_zipIdx, Nat.zero_add]
    rw [lexLe_iff _ _ (by rw [padded_length _ (by omega), padded_length _ (by omega)])
      (padded_digits _) (padded_digits _), val_padded, val_padded]
    omega
  have heq := List.Perm.eq_of_pairwise (le := fun a b : File α => lexLe a.name b.name = true)
    (by
      intro a b ha hb h1 h2
      have ha' := hperm.mem_iff.mp ha
      obtain ⟨i, hi, hin, hib, hid⟩ := hlt a ha'
      obtain ⟨j, hj, hjn, hjb, hjd⟩ := hlt b hb
      rw [hin, hjn] at h1 h2
      have hlen : (padded i).length = (padded j).length := by
        rw [padded_length _ (by omega), padded_length _ (by omega)]
      rw [lexLe_iff _ _ hlen (padded_digits _) (padded_digits _), val_padded, val_padded] at h1
      rw [lexLe_iff _ _ hlen.symm (padded_digits _) (padded_digits _), val_padded, val_padded] at h2
      have hij : i = j := by omega
      subst hij
      rw [hib] at hjb
      cases a; cases b
      simp_all)
    (List.pairwise_mergeSort (le := fun a b : File α => lexLe a.name b.name)
      (fun a b c h1 h2 => lexLe_trans a.name b.name c.name h1 h2)
      (fun a b => lexLe_total a.name b.name) _)
    hsorted hperm
  unfold readDir
  rw [heq]
  unfold chunkFiles
  rw [List.flatMap_map]
  have : chunks.zipIdx.flatMap (fun a => a.1) = (chunks.zipIdx.map (·.1)).flatten := by
    rw [List.flatMap]
  simp only
  rw [this, List.zipIdx_map_fst]

/-- C19: whatever the file-size limit, the encoding size, other content of the store and the
order in which the object store lists the files, reading a committed stream returns exactly the
batches written, in order. -/
theorem C19_committed_stream_reads_back (size : List α → Nat) (maxSize dir : Nat) (bs : List α)
    (store listing : List (File α)) (hfresh : ∀ f ∈ store, f.dir ≠ dir)
    (hlen : bs.length < 10 ^ 20) :
    let w := (⟨dir, [], 0⟩ : Sink α).writeAll size maxSize bs store
    let committed := (w.1.flush w.2).2
    listing.Perm committed → readDir dir listing = bs := by
  intro w committed hp
  have h0 : SInv store dir [] (⟨dir, [], 0⟩ : Sink α) store :=
    ⟨rfl, ⟨[], by
      simp only [chunkFiles, List.zipIdx_nil, List.map_nil, List.filter_eq_nil_iff]
      intro f hf; simpa using hfresh f hf, rfl, rfl, by simp, by simp⟩, fun _ _ => rfl⟩
  have h1 := sinv_writeAll size maxSize bs h0
  obtain ⟨h2, hcur⟩ := sinv_flush h1
  obtain ⟨chunks, hf, hw, hi, hle, hne⟩ := h2.files
  rw [hcur, List.append_nil, List.nil_append] at hw
  rw [readDir_chunks dir chunks (by simp at hle; omega) _ listing hp hf, hw]

/-- C19: before the commit, whatever is visible is a prefix of what was written: no foreign or
reordered data is ever read. -/
theorem C19_uncommitted_stream_is_a_prefix (size : List α → Nat) (maxSize dir : Nat) (bs : List α)
    (store listing : List (File α)) (hfresh : ∀ f ∈ store, f.dir ≠ dir)
    (hlen : bs.length < 10 ^ 20) :
    listing.Perm ((⟨dir, [], 0⟩ : Sink α).writeAll size maxSize bs store).2 →
      readDir dir listing <+: bs := by
  intro hp
  have h0 : SInv store dir [] (⟨dir, [], 0⟩ : Sink α) store :=
    ⟨rfl, ⟨[], by
      simp only [chunkFiles, List.zipIdx_nil, List.map_nil, List.filter_eq_nil_iff]
      intro f hf; simpa using hfresh f hf, rfl, rfl, by simp, by simp⟩, fun _ _ => rfl⟩
  have h1 := sinv_writeAll size maxSize bs h0
  obtain ⟨chunks, hf, hw, hi, hle, hne⟩ := h1.files
  rw [List.nil_append] at hw
  rw [readDir_chunks dir chunks (by simp at hle; omega) _ listing hp hf, ← hw]
  exact List.prefix_append _ _

/-- C19: the streams of other attempts, channels and tasks are not affected by writing or
committing. -/
theorem C19_other_streams_unaffected (size : List α → Nat) (maxSize dir other : Nat) (bs : List α)
    (store : List (File α)) (hfresh : ∀ f ∈ store, f.dir ≠ dir) (hd : other ≠ dir) :
    let w := (⟨dir, [], 0⟩ : Sink α).writeAll size maxSize bs store
    readDir other (w.1.flush w.2).2 = readDir other store := by
  intro w
  have h0 : SInv store dir [] (⟨dir, [], 0⟩ : Sink α) store :=
    ⟨rfl, ⟨[], by
      simp only [chunkFiles, List.zipIdx_nil, List.map_nil, List.filter_eq_nil_iff]
      intro f hf; simpa using hfresh f hf, rfl, rfl, by simp, by simp⟩, fun _ _ => rfl⟩
  have h1 := sinv_writeAll size maxSize bs h0
  obtain ⟨h2, _⟩ := sinv_flush h1
  unfold readDir
  rw [h2.other other hd]

/-- C19: an aborted stream leaves no file behind and removes nothing else. -/
theorem C19_abort_leaves_nothing (s : Sink α) (store : List (File α)) :
    (∀ f ∈ s.abort store, f.dir ≠ s.dir) ∧
      ∀ f ∈ store, f.dir ≠ s.dir → f ∈ s.abort store := by
  unfold Sink.abort
  constructor
  · intro f hf; simpa using (List.mem_filter.mp hf).2
  · intro f hf hd; rw [List.mem_filter]; simp [hf, hd]

end Storage

/-- Twelve batches, one per file: `part-…10` and `part-…11` come after `part-…2`. -/
example :
    let w := (⟨7, [], 0⟩ : Sink Nat).writeAll (fun l => 100 * l.length) 100 (List.range 12) []
    readDir 7 w.2.reverse = List.range 12 := by
  intro w
  exact C19_committed_stream_reads_back (fun l => 100 * l.length) 100 7 (List.range 12) [] w.2.reverse
    (by simp) (by simp) (by
      have : (w.1.flush w.2).2 = w.2 := by
        have : w.1.cur = [] := by
          simp [w, Sink.writeAll, Sink.write, Sink.flush, List.range, List.range.loop]
        simp [Sink.flush, this]
      show w.2.reverse.Perm (w.1.flush w.2).2
      rw [this]; exact List.reverse_perm _)

end Verif.Exec.Streams
