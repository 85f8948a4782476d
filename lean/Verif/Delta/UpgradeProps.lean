import Verif.Delta.Upgrade
import Mathlib.Data.List.Nodup
/-!
# C114: upgrading the protocol of a Delta table
-/

namespace Verif.Delta.Upgrade

namespace Spec

/-- The writer version that implies a feature in a protocol without feature lists. -/
def legacyWriter : Feature → Option Int
  | .appendOnly => some 2
  | .invariants => some 2
  | .checkConstraints => some 3
  | .changeDataFeed => some 4
  | .generatedColumns => some 4
  | .columnMapping => some 5
  | .identityColumns => some 6
  | .other _ => none

/-- A writer must support a feature: it is listed from writer version 7 on, and implied by the version
below that. Column mapping is only implied if readers must support it too. -/
def WriterMust (p : Protocol) (f : Feature) : Prop :=
  (7 ≤ p.writer ∧ ∃ fs, p.writerFeatures = some fs ∧ f ∈ fs) ∨
  (p.writer < 7 ∧ (∃ v, legacyWriter f = some v ∧ v ≤ p.writer) ∧ (f = .columnMapping → 2 ≤ p.reader))

/-- A reader must support a feature: it is listed from reader version 3 on, and reader version 2 means
column mapping, provided the writer side of the protocol has it. -/
def ReaderMust (p : Protocol) (f : Feature) : Prop :=
  (3 ≤ p.reader ∧ ∃ fs, p.readerFeatures = some fs ∧ f ∈ fs) ∨
  (p.reader = 2 ∧ f = .columnMapping ∧ WriterMust p .columnMapping)

/-- A protocol as the Delta specification allows it: feature lists occur only with the versions that
have them, and a reader with feature lists needs a writer with feature lists. -/
structure Valid (p : Protocol) : Prop where
  readers : p.readerFeatures ≠ none → 3 ≤ p.reader
  writers : p.writerFeatures ≠ none → 7 ≤ p.writer
  both : 3 ≤ p.reader → 7 ≤ p.writer

end Spec

open Spec

theorem mem_push {fs : List Feature} {f g : Feature} : g ∈ push fs f ↔ g ∈ fs ∨ g = f := by
  unfold push
  split
  · rename_i h
    rw [List.contains_eq_mem, decide_eq_true_eq] at h
    constructor
    · exact Or.inl
    · rintro (h' | rfl)
      · exact h'
      · exact h
  · simp

theorem mem_pushIf {c : Bool} {fs : List Feature} {f g : Feature} :
    g ∈ pushIf c f fs ↔ g ∈ fs ∨ (c = true ∧ g = f) := by
  unfold pushIf
  cases c
  · simp
  · simp [mem_push]

theorem mem_append {fs gs : List Feature} {f : Feature} : f ∈ appendReq fs gs ↔ f ∈ fs ∨ f ∈ gs := by
  unfold appendReq
  induction gs generalizing fs with
  | nil => simp
  | cons g gs ih => simp only [List.foldl_cons, ih, mem_push, List.mem_cons, or_assoc]

theorem nodup_push {fs : List Feature} {f : Feature} (h : fs.Nodup) : (push fs f).Nodup := by
  unfold push
  split
  · exact h
  · rename_i n
    rw [List.contains_eq_mem, decide_eq_true_eq] at n
    exact List.Nodup.append h (by simp) (by simpa using n)

theorem nodup_pushIf {c : Bool} {fs : List Feature} {f : Feature} (h : fs.Nodup) :
    (pushIf c f fs).Nodup := by
  unfold pushIf
  split
  · exact nodup_push h
  · exact h

theorem nodup_append {fs gs : List Feature} (h : fs.Nodup) : (appendReq fs gs).Nodup := by
  unfold appendReq
  induction gs generalizing fs with
  | nil => exact h
  | cons g gs ih => exact ih (nodup_push h)

theorem append_same {fs gs : List Feature} (h : ∀ g ∈ gs, g ∈ fs) : appendReq fs gs = fs := by
  unfold appendReq
  induction gs generalizing fs with
  | nil => rfl
  | cons g gs ih =>
    have : push fs g = fs := by
      rw [push, if_pos]
      simpa using h g List.mem_cons_self
    rw [List.foldl_cons, this]
    exact ih (fun x hx => h x (List.mem_cons_of_mem _ hx))

theorem mem_writer_low {p : Protocol} (h : p.writer < 7) (f : Feature) :
    f ∈ writerForUpgrade p ↔ f ∈ p.writerFeatures.getD [] ∨
      ((∃ v, legacyWriter f = some v ∧ v ≤ p.writer) ∧ (f = .columnMapping → 2 ≤ p.reader)) := by
  unfold writerForUpgrade
  rw [if_neg (by omega)]
  simp only [mem_pushIf, Bool.and_eq_true, decide_eq_true_eq]
  cases f <;> (simp [legacyWriter]; try tauto)

theorem mem_writer_high {p : Protocol} (h : 7 ≤ p.writer) (f : Feature) :
    f ∈ writerForUpgrade p ↔ ∃ fs, p.writerFeatures = some fs ∧ f ∈ fs := by
  unfold writerForUpgrade
  rw [if_pos h]
  cases p.writerFeatures <;> simp

theorem must_writer {p : Protocol} {f : Feature} (h : WriterMust p f) : f ∈ writerForUpgrade p := by
  rcases h with ⟨h, k⟩ | ⟨h, k⟩
  · exact (mem_writer_high h f).2 k
  · exact (mem_writer_low h f).2 (Or.inr k)

theorem writer_must {p : Protocol} (v : Valid p) {f : Feature} (h : f ∈ writerForUpgrade p) :
    WriterMust p f := by
  rcases Int.lt_or_le p.writer 7 with lt | le
  · rcases (mem_writer_low lt f).1 h with k | k
    · cases e : p.writerFeatures with
      | none => simp [e] at k
      | some fs =>
        have := v.writers (by simp [e])
        omega
    · exact Or.inr ⟨lt, k⟩
  · exact Or.inl ⟨le, (mem_writer_high le f).1 h⟩

theorem mem_reader {p : Protocol} {f : Feature} (h : ReaderMust p f) : f ∈ readerForUpgrade p := by
  unfold readerForUpgrade
  rcases h with ⟨h, fs, e, k⟩ | ⟨h, rfl, k⟩
  · split <;> rw [mem_pushIf, e] <;> exact Or.inl k
  · rcases k with ⟨w, fs, e, k⟩ | ⟨w, ⟨v, ev, hv⟩, -⟩
    · rw [if_pos w, mem_pushIf, e]
      right
      simp [h, k]
    · cases ev
      rw [if_neg (by omega), mem_pushIf]
      right
      simp only [Bool.and_eq_true, decide_eq_true_eq, and_true]
      omega

theorem reader_must {p : Protocol} (v : Valid p) {f : Feature} (h : f ∈ readerForUpgrade p) :
    ReaderMust p f := by
  have listed : f ∈ p.readerFeatures.getD [] → ReaderMust p f := by
    intro k
    cases e : p.readerFeatures with
    | none => simp [e] at k
    | some fs => exact Or.inl ⟨v.readers (by simp [e]), fs, e, by simpa [e] using k⟩
  unfold readerForUpgrade at h
  split at h
  · rename_i w
    rcases mem_pushIf.1 h with k | ⟨c, rfl⟩
    · exact listed k
    · rw [Bool.and_eq_true, decide_eq_true_eq, List.contains_eq_mem, decide_eq_true_eq] at c
      refine Or.inr ⟨c.1, rfl, Or.inl ⟨w, ?_⟩⟩
      cases e : p.writerFeatures with
      | none => simp [e] at c
      | some fs => exact ⟨fs, rfl, by simpa [e] using c.2⟩
  · rename_i w
    rcases mem_pushIf.1 h with k | ⟨c, rfl⟩
    · exact listed k
    · rw [Bool.and_eq_true, decide_eq_true_eq, decide_eq_true_eq] at c
      have : p.reader = 2 := by
        have := v.both
        omega
      exact Or.inr ⟨this, rfl, Or.inr ⟨by omega, ⟨5, rfl, c.2⟩, fun _ => c.1⟩⟩

/-- **C114.** After an upgrade the versions are the larger ones of the two sides, and every feature
that writers or readers had to support on either side must be supported. -/
theorem C114_keeps (self req : Protocol) :
    (merge self req).reader = max self.reader req.reader ∧
    (merge self req).writer = max self.writer req.writer ∧
    (∀ f, WriterMust self f ∨ WriterMust req f → WriterMust (merge self req) f) ∧
    ∀ f, ReaderMust self f ∨ ReaderMust req f → ReaderMust (merge self req) f := by
  have hr : (merge self req).reader = max self.reader req.reader := rfl
  have hw : (merge self req).writer = max self.writer req.writer := rfl
  have writers : ∀ f, WriterMust self f ∨ WriterMust req f → WriterMust (merge self req) f := by
    intro f h
    rcases Int.lt_or_le (max self.writer req.writer) 7 with lt | le
    · right
      refine ⟨by omega, ?_⟩
      rw [hr, hw]
      rcases h with (⟨h, -⟩ | ⟨-, ⟨v, e, k⟩, c⟩) | (⟨h, -⟩ | ⟨-, ⟨v, e, k⟩, c⟩)
      · omega
      · exact ⟨⟨v, e, by omega⟩, fun x => by have := c x; omega⟩
      · omega
      · exact ⟨⟨v, e, by omega⟩, fun x => by have := c x; omega⟩
    · left
      refine ⟨le, _, by rw [merge]; exact if_pos le, ?_⟩
      rw [mem_append]
      exact h.imp must_writer must_writer
  refine ⟨hr, hw, writers, fun f h => ?_⟩
  rcases Int.lt_or_le (max self.reader req.reader) 3 with lt | le
  · right
    rcases h with (⟨h, -⟩ | ⟨h, rfl, k⟩) | (⟨h, -⟩ | ⟨h, rfl, k⟩)
    · omega
    · exact ⟨by omega, rfl, writers _ (Or.inl k)⟩
    · omega
    · exact ⟨by omega, rfl, writers _ (Or.inr k)⟩
  · left
    refine ⟨le, _, by rw [merge]; exact if_pos le, ?_⟩
    rw [mem_append]
    exact h.imp mem_reader mem_reader

/-- A legacy table with column mapping. -/
def legacy : Protocol := { reader := 2, writer := 5, readerFeatures := none, writerFeatures := none }

/-- What deletion vectors need. -/
def vectors : Protocol :=
  { reader := 3, writer := 7, readerFeatures := some [.other "deletionVectors"], writerFeatures := some [.other "deletionVectors"] }

example : ReaderMust legacy .columnMapping ∧ WriterMust legacy .checkConstraints ∧
    WriterMust vectors (.other "deletionVectors") :=
  ⟨Or.inr ⟨rfl, rfl, Or.inr ⟨by decide, ⟨5, rfl, by decide⟩, fun _ => by decide⟩⟩,
    Or.inr ⟨by decide, ⟨3, rfl, by decide⟩, fun h => by cases h⟩,
    Or.inl ⟨by decide, _, rfl, by decide⟩⟩

/-- **C114, nothing invented.** An upgrade between valid protocols gives a valid protocol; where it
lists features, it lists only features that one of the sides asked for, and no feature twice. -/
theorem C114_nothing_invented {self req : Protocol} (hs : Valid self) (hq : Valid req) :
    Valid (merge self req) ∧
    (∀ fs, (merge self req).readerFeatures = some fs →
      ∀ f ∈ fs, ReaderMust self f ∨ ReaderMust req f) ∧
    (∀ fs, (merge self req).writerFeatures = some fs →
      ∀ f ∈ fs, WriterMust self f ∨ WriterMust req f) ∧
    ((∀ fs, self.readerFeatures = some fs → fs.Nodup) → (∀ fs, self.writerFeatures = some fs → fs.Nodup) →
      (∀ fs, (merge self req).readerFeatures = some fs → fs.Nodup) ∧
      ∀ fs, (merge self req).writerFeatures = some fs → fs.Nodup) := by
  have hr : (merge self req).reader = max self.reader req.reader := rfl
  have hw : (merge self req).writer = max self.writer req.writer := rfl
  have er : (merge self req).readerFeatures = if max self.reader req.reader ≥ 3 then
    some (appendReq (readerForUpgrade self) (readerForUpgrade req)) else self.readerFeatures := rfl
  have ew : (merge self req).writerFeatures = if max self.writer req.writer ≥ 7 then
    some (appendReq (writerForUpgrade self) (writerForUpgrade req)) else self.writerFeatures := rfl
  refine ⟨⟨?_, ?_, ?_⟩, ?_, ?_, ?_⟩
  · intro h
    rw [er] at h
    rw [hr]
    split at h
    · assumption
    · have := hs.readers h
      omega
  · intro h
    rw [ew] at h
    rw [hw]
    split at h
    · assumption
    · have := hs.writers h
      omega
  · have := hs.both
    have := hq.both
    rw [hr, hw]
    omega
  · intro fs e f hf
    rw [er] at e
    split at e
    · cases e
      exact (mem_append.1 hf).imp (reader_must hs) (reader_must hq)
    · have := hs.readers (by simp [e])
      omega
  · intro fs e f hf
    rw [ew] at e
    split at e
    · cases e
      exact (mem_append.1 hf).imp (writer_must hs) (writer_must hq)
    · have := hs.writers (by simp [e])
      omega
  · intro nr nw
    have dr : (self.readerFeatures.getD []).Nodup := by
      cases e : self.readerFeatures with
      | none => simp
      | some fs => exact nr fs e
    have dw : (self.writerFeatures.getD []).Nodup := by
      cases e : self.writerFeatures with
      | none => simp
      | some fs => exact nw fs e
    constructor
    · intro fs e
      rw [er] at e
      split at e
      · cases e
        refine nodup_append ?_
        unfold readerForUpgrade
        split <;> exact nodup_pushIf dr
      · exact nr fs e
    · intro fs e
      rw [ew] at e
      split at e
      · cases e
        refine nodup_append ?_
        unfold writerForUpgrade
        split
        · exact dw
        · exact nodup_pushIf (nodup_pushIf (nodup_pushIf (nodup_pushIf (nodup_pushIf (nodup_pushIf
            (nodup_pushIf dw))))))
      · exact nw fs e

example : Valid legacy ∧ Valid vectors ∧ (merge legacy vectors).readerFeatures =
    some [.columnMapping, .other "deletionVectors"] :=
  ⟨⟨by decide, by decide, by decide⟩, ⟨by decide, by decide, by decide⟩, by decide⟩

/-- **C114, idempotence.** Upgrading a table again with the same requirements changes nothing, so no
new protocol needs to be committed. -/
theorem C114_idempotent {self req : Protocol} (hs : Valid self) (hq : Valid req) :
    merge (merge self req) req = merge self req := by
  have hv := (C114_nothing_invented hs hq).1
  have keep := C114_keeps self req
  have hr : (merge self req).reader = max self.reader req.reader := rfl
  have hw : (merge self req).writer = max self.writer req.writer := rfl
  have er : (merge self req).readerFeatures = if max self.reader req.reader ≥ 3 then
    some (appendReq (readerForUpgrade self) (readerForUpgrade req)) else self.readerFeatures := rfl
  have ew : (merge self req).writerFeatures = if max self.writer req.writer ≥ 7 then
    some (appendReq (writerForUpgrade self) (writerForUpgrade req)) else self.writerFeatures := rfl
  generalize hm : merge self req = m at hr hw er ew keep hv
  have r2 : max m.reader req.reader = m.reader := by omega
  have w2 : max m.writer req.writer = m.writer := by omega
  have fr : (if max m.reader req.reader ≥ 3 then
      some (appendReq (readerForUpgrade m) (readerForUpgrade req)) else m.readerFeatures) =
      m.readerFeatures := by
    split
    · rename_i h
      rw [append_same (fun g hg => mem_reader (keep.2.2.2 g (Or.inr (reader_must hq hg))))]
      have w := hv.both (by omega)
      rw [readerForUpgrade, if_pos w, er, if_pos (by omega)]
      have : m.reader ≠ 2 := by omega
      simp [this, pushIf]
    · rfl
  have fw : (if max m.writer req.writer ≥ 7 then
      some (appendReq (writerForUpgrade m) (writerForUpgrade req)) else m.writerFeatures) =
      m.writerFeatures := by
    split
    · rename_i h
      rw [append_same (fun g hg => must_writer (keep.2.2.1 g (Or.inr (writer_must hq hg))))]
      rw [writerForUpgrade, if_pos (by omega), ew, if_pos (by omega)]
      rfl
    · rfl
  show Protocol.mk (max m.reader req.reader) (max m.writer req.writer) _ _ = m
  rw [fr, fw, r2, w2]

example : merge legacy vectors ≠ legacy ∧ merge (merge legacy vectors) vectors = merge legacy vectors := by
  decide

end Verif.Delta.Upgrade
