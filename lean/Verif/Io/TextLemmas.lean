import Verif.Io.Text
import Verif.Io.Utf8Lemmas

/-!
# Lemmas about text files
-/

namespace Verif.Io.Text

open Verif.Io.Spec

namespace Spec

/-- Without a separator of one's own, lines end in CR, LF or CRLF. -/
def IsEnd (sep : Option Nat) (b : Nat) : Prop :=
  match sep with
  | some s => b = s
  | none => b = 13 ∨ b = 10

/-- The end of a line, given what follows it: CR and LF are not taken apart. -/
def Ends (sep : Option Nat) (t rest : Bytes) : Prop :=
  match sep with
  | some s => t = [s]
  | none => t = [10] ∨ t = [13, 10] ∨ (t = [13] ∧ rest.head? ≠ some 10)

/-- The lines of a file; the last one need not be ended. -/
inductive Lines (sep : Option Nat) : Bytes → List Bytes → Prop
  | nil : Lines sep [] []
  | last {line : Bytes} (h : line ≠ []) (hno : ∀ b ∈ line, ¬ IsEnd sep b) : Lines sep line [line]
  | line {line t rest : Bytes} {rows : List Bytes} (hno : ∀ b ∈ line, ¬ IsEnd sep b) (ht : Ends sep t rest)
      (h : Lines sep rest rows) : Lines sep (line ++ t ++ rest) (line :: rows)

/-- No buffer ends between CR and LF, if these end lines. -/
def Aligned (sep : Option Nat) (chunks : List Bytes) : Prop :=
  sep = none → ∀ before a b after, chunks = before ++ a :: b :: after → a.getLast? = some 13 → b.head? ≠ some 10

end Spec

open Spec

/-- Lines that are ended, and the rest. -/
inductive Split (sep : Option Nat) : Bytes → List Bytes → Bytes → Prop
  | nil (rest : Bytes) : Split sep rest [] rest
  | cons {line t r rest : Bytes} {rows : List Bytes} (hno : ∀ b ∈ line, ¬ IsEnd sep b) (ht : Ends sep t r)
      (h : Split sep r rows rest) : Split sep (line ++ t ++ r) (line :: rows) rest

theorem Split.trans {sep : Option Nat} {a b c : Bytes} {r s : List Bytes} (h : Split sep a r b) (h' : Split sep b s c) :
    Split sep a (r ++ s) c := by
  induction h with
  | nil => exact h'
  | cons hno ht _ ih => exact .cons hno ht (ih h')

theorem Split.lines {sep : Option Nat} {a b : Bytes} {r s : List Bytes} (h : Split sep a r b) (h' : Lines sep b s) :
    Lines sep a (r ++ s) := by
  induction h with
  | nil => exact h'
  | cons hno ht _ ih => exact .line hno ht (ih h')

theorem isLineEnd_zero {sep : Option Nat} {b : Nat} {r : Bytes} : isLineEnd sep b r = 0 ↔ ¬ IsEnd sep b := by
  cases sep with
  | some s =>
    simp only [isLineEnd, IsEnd, beq_iff_eq]
    split <;> simp_all
  | none =>
    simp only [isLineEnd, IsEnd, beq_iff_eq]
    split
    · split <;> simp_all
    · split <;> simp_all

theorem isLineEnd_succ {sep : Option Nat} {b k : Nat} {r : Bytes} (h : isLineEnd sep b r = k + 1) :
    ∃ t, b :: r = t ++ r.drop k ∧ Ends sep t (r.drop k) := by
  cases sep with
  | some s =>
    simp only [isLineEnd, beq_iff_eq] at h
    split at h
    · next hb =>
      obtain rfl : k = 0 := by omega
      exact ⟨[b], by simp, by rw [hb]; rfl⟩
    · cases h
  | none =>
    simp only [isLineEnd, beq_iff_eq] at h
    split at h
    · next hb =>
      split at h
      · next hr =>
        obtain rfl : k = 1 := by omega
        cases r with
        | nil => cases hr
        | cons c r =>
          simp only [List.head?_cons, Option.some.injEq] at hr
          exact ⟨[b, c], by simp, Or.inr (Or.inl (by rw [hb, hr]))⟩
      · next hr =>
        obtain rfl : k = 0 := by omega
        exact ⟨[b], by simp, Or.inr (Or.inr ⟨by rw [hb], by simpa using hr⟩)⟩
    · split at h
      · next hb =>
        obtain rfl : k = 0 := by omega
        exact ⟨[b], by simp, Or.inl (by rw [hb])⟩
      · cases h

theorem firstEnd_none {sep : Option Nat} {l : Bytes} (h : firstEnd sep l = none) : ∀ b ∈ l, ¬ IsEnd sep b := by
  induction l with
  | nil => simp
  | cons a r ih =>
    simp only [firstEnd] at h
    split at h
    · next h0 =>
      rw [Option.map_eq_none_iff] at h
      intro b hb
      rcases List.mem_cons.1 hb with rfl | hb
      · exact isLineEnd_zero.1 h0
      · exact ih h b hb
    · cases h

theorem firstEnd_some {sep : Option Nat} {c l r : Bytes} (h : firstEnd sep c = some (l, r)) :
    ∃ t, c = l ++ t ++ r ∧ (∀ b ∈ l, ¬ IsEnd sep b) ∧ Ends sep t r := by
  induction c generalizing l with
  | nil => cases h
  | cons a c ih =>
    simp only [firstEnd] at h
    split at h
    · next h0 =>
      rw [Option.map_eq_some_iff] at h
      obtain ⟨⟨l', r'⟩, h1, h2⟩ := h
      simp only [Prod.mk.injEq] at h2
      obtain ⟨rfl, rfl⟩ := h2
      obtain ⟨t, h3, h4, h5⟩ := ih h1
      refine ⟨t, by rw [h3]; simp, ?_, h5⟩
      intro b hb
      rcases List.mem_cons.1 hb with rfl | hb
      · exact isLineEnd_zero.1 h0
      · exact h4 b hb
    · next k h0 =>
      simp only [Option.some.injEq, Prod.mk.injEq] at h
      obtain ⟨rfl, rfl⟩ := h
      obtain ⟨t, h1, h2⟩ := isLineEnd_succ h0
      exact ⟨t, by rw [h1]; simp, by simp, h2⟩

theorem ends_ne {sep : Option Nat} {t r : Bytes} (h : Ends sep t r) : t ≠ [] := by
  cases sep with
  | some s => rw [show t = [s] from h]; simp
  | none => rcases h with h | h | h <;> simp [h]

/-- The two parts of a buffer do not take CR and LF apart. -/
def Joint (sep : Option Nat) (c s : Bytes) : Prop := sep = none → c.getLast? = some 13 → s.head? ≠ some 10

theorem ends_append {sep : Option Nat} {l t r s : Bytes} (h : Ends sep t r) (hj : Joint sep (l ++ t ++ r) s) :
    Ends sep t (r ++ s) := by
  cases sep with
  | some x => exact h
  | none =>
    rcases h with h | h | ⟨h, h'⟩
    · exact Or.inl h
    · exact Or.inr (Or.inl h)
    · refine Or.inr (Or.inr ⟨h, ?_⟩)
      cases r with
      | nil =>
        rw [List.nil_append]
        refine hj rfl ?_
        rw [h]
        simp
      | cons a r => simpa using h'

theorem joint_suffix {sep : Option Nat} {l r s : Bytes} (hj : Joint sep (l ++ r) s) : Joint sep r s := by
  intro h1 h2
  refine hj h1 ?_
  rw [List.getLast?_append, h2]
  rfl

/-- What the loop over a buffer does, given what follows the buffer. -/
theorem scan_split {sep : Option Nat} (n : Nat) (c s : Bytes) (hj : Joint sep c s) :
    Split sep (c ++ s) (scan sep n c).1 ((scan sep n c).2.1 ++ (scan sep n c).2.2 ++ s) ∧
    (∀ b ∈ (scan sep n c).2.1, ¬ IsEnd sep b) ∧
    (scan sep n c).1.length ≤ n ∧
    ((scan sep n c).1.length = n → (scan sep n c).2.1 = []) ∧
    ((scan sep n c).2.2 ≠ [] → (scan sep n c).1.length = n) ∧
    (∃ pre, c = pre ++ (scan sep n c).2.2) ∧
    (0 < n → c ≠ [] → (scan sep n c).2.2.length < c.length) := by
  induction n generalizing c with
  | zero =>
    simp only [scan]
    exact ⟨Split.nil _, by simp, by simp, by simp, by simp, ⟨[], rfl⟩, by simp⟩
  | succ n ih =>
    simp only [scan]
    split
    · next h =>
      refine ⟨?_, firstEnd_none h, by simp, by simp, by simp, ⟨c, by simp⟩, fun _ hc => List.length_pos_iff.2 hc⟩
      simp only [List.append_nil]
      exact Split.nil _
    · next l r h =>
      obtain ⟨t, h1, h2, h3⟩ := firstEnd_some h
      have ht := ends_append h3 (h1 ▸ hj)
      have hjr : Joint sep r s := by
        by_cases hr : r = []
        · subst hr
          intro _ h
          cases h
        · exact joint_suffix (h1 ▸ hj)
      obtain ⟨g1, g2, g3, g4, g5, ⟨pre, g6⟩, g7⟩ := ih r hjr
      refine ⟨?_, g2, ?_, ?_, ?_, ⟨l ++ t ++ pre, ?_⟩, ?_⟩
      · have := Split.cons h2 ht g1
        rw [h1]
        simpa using this
      · simp only [List.length_cons]
        omega
      · simp only [List.length_cons]
        intro h
        exact g4 (by omega)
      · simp only [List.length_cons]
        intro h
        rw [g5 h]
      · rw [List.append_assoc (l ++ t), ← g6]
        exact h1
      · intro _ _
        have hl := congrArg List.length h1
        have := List.length_pos_iff.2 (ends_ne h3)
        have hl' := congrArg List.length g6
        simp only [List.length_append] at hl hl'
        change (scan sep n r).2.2.length < c.length
        omega

/-- What is known after a buffer is decoded, given what follows the buffer. -/
theorem decode_split (d : RecordDecoder) (c s : Bytes) (n : Nat) (hw : d.wholeText = false) (hn : 0 < n) (hc : c ≠ [])
    (hp : ∀ b ∈ d.partialLine, ¬ IsEnd d.lineSep b) (hj : Joint d.lineSep c s) :
    (∃ new, (d.decode c n).1.rows = d.rows ++ new ∧
      Split d.lineSep (d.partialLine ++ c ++ s) new ((d.decode c n).1.partialLine ++ (d.decode c n).2 ++ s) ∧
      new.length ≤ n ∧ (new.length = n → (d.decode c n).1.partialLine = []) ∧
      ((d.decode c n).2 ≠ [] → new.length = n)) ∧
    (d.decode c n).1.lineSep = d.lineSep ∧ (d.decode c n).1.wholeText = false ∧
    (∀ b ∈ (d.decode c n).1.partialLine, ¬ IsEnd d.lineSep b) ∧
    (∃ pre, c = pre ++ (d.decode c n).2) ∧
    (d.decode c n).2.length < c.length := by
  unfold RecordDecoder.decode
  rw [if_neg (by omega), if_neg (by rw [hw]; simp)]
  split
  · next hif =>
    split
    · next h =>
      refine ⟨⟨[], by simp, ?_, by simp, by simp; omega, by simp⟩, rfl, hw, ?_, ⟨c, by simp⟩, by
        simpa using List.length_pos_iff.2 hc⟩
      · simp only [List.append_nil]
        exact Split.nil _
      · intro b hb
        rcases List.mem_append.1 hb with hb | hb
        · exact hp b hb
        · exact firstEnd_none h b hb
    · next l r h =>
      obtain ⟨t, h1, h2, h3⟩ := firstEnd_some h
      have ht := ends_append h3 (h1 ▸ hj)
      have hjr : Joint d.lineSep r s := by
        by_cases hr : r = []
        · subst hr
          intro _ h
          cases h
        · exact joint_suffix (h1 ▸ hj)
      obtain ⟨g1, g2, g3, g4, g5, ⟨pre, g6⟩, _⟩ := scan_split (n - 1) r s hjr
      refine ⟨⟨_, rfl, ?_, ?_, ?_, ?_⟩, rfl, hw, g2, ⟨l ++ t ++ pre, ?_⟩, ?_⟩
      · have h2' : ∀ b ∈ d.partialLine ++ l, ¬ IsEnd d.lineSep b := by
          intro b hb
          rcases List.mem_append.1 hb with hb | hb
          · exact hp b hb
          · exact h2 b hb
        have := Split.cons h2' ht g1
        rw [h1]
        simpa using this
      · simp only [List.length_cons]
        omega
      · simp only [List.length_cons]
        intro h
        exact g4 (by omega)
      · simp only [List.length_cons]
        intro h
        rw [g5 h]
        omega
      · rw [List.append_assoc (l ++ t), ← g6]
        exact h1
      · have hl := congrArg List.length h1
        have := List.length_pos_iff.2 (ends_ne h3)
        have hl' := congrArg List.length g6
        simp only [List.length_append] at hl hl'
        simp only
        omega
  · next hif =>
    have hp0 : d.partialLine = [] := by
      cases h : d.partialLine with
      | nil => rfl
      | cons => cases c with
        | nil => exact absurd rfl hc
        | cons => simp [h] at hif
    obtain ⟨g1, g2, g3, g4, g5, g6, g7⟩ := scan_split n c s hj
    rw [hp0]
    simp only [List.nil_append]
    exact ⟨⟨_, rfl, g1, g3, g4, g5⟩, trivial, hw, g2, g6, g7 hn hc⟩

theorem aligned_tail {sep : Option Nat} {c : Bytes} {cs : List Bytes} (h : Aligned sep (c :: cs)) : Aligned sep cs := by
  intro hs before a b after e
  exact h hs (c :: before) a b after (by rw [e]; rfl)

theorem aligned_joint {sep : Option Nat} {c : Bytes} {cs : List Bytes} (h : Aligned sep (c :: cs)) (hne : [] ∉ cs) :
    Joint sep c cs.flatten := by
  intro hs hl
  cases cs with
  | nil => simp
  | cons b cs =>
    have := h hs [] c b cs rfl hl
    cases b with
    | nil => simp at hne
    | cons x b => simpa using this

theorem aligned_replace {sep : Option Nat} {pre c : Bytes} {cs : List Bytes} (h : Aligned sep ((pre ++ c) :: cs)) :
    Aligned sep (c :: cs) := by
  intro hs before a b after e hl
  cases before with
  | nil =>
    simp only [List.nil_append, List.cons.injEq] at e
    refine h hs [] (pre ++ c) b after (by rw [e.2]; rfl) ?_
    rw [List.getLast?_append, e.1, hl]
    rfl
  | cons x before =>
    simp only [List.cons_append, List.cons.injEq] at e
    exact h hs ((pre ++ c) :: before) a b after (by rw [e.2]; rfl) hl

/-- What is known when a batch is full or the file is at its end. -/
theorem fill_split (batch n : Nat) (d : RecordDecoder) (chunks : List Bytes) (hw : d.wholeText = false)
    (hn : chunks.length < n) (hne : [] ∉ chunks) (ha : Aligned d.lineSep chunks) (hb : d.rows.length < batch)
    (hp : ∀ b ∈ d.partialLine, ¬ IsEnd d.lineSep b) :
    (∃ new, (fill batch n d chunks).1.rows = d.rows ++ new ∧
      Split d.lineSep (d.partialLine ++ chunks.flatten) new
        ((fill batch n d chunks).1.partialLine ++ (fill batch n d chunks).2.flatten)) ∧
    ((fill batch n d chunks).1.rows.length = batch ∧ (fill batch n d chunks).1.partialLine = [] ∨
      (fill batch n d chunks).2 = [] ∧ (fill batch n d chunks).1.rows.length < batch) ∧
    (fill batch n d chunks).1.lineSep = d.lineSep ∧ (fill batch n d chunks).1.wholeText = false ∧
    (∀ b ∈ (fill batch n d chunks).1.partialLine, ¬ IsEnd d.lineSep b) ∧
    [] ∉ (fill batch n d chunks).2 ∧ Aligned d.lineSep (fill batch n d chunks).2 ∧
    (chunks ≠ [] → (fill batch n d chunks).2.flatten.length < chunks.flatten.length) := by
  induction n generalizing d chunks with
  | zero => omega
  | succ n ih =>
    cases chunks with
    | nil =>
      simp only [fill]
      exact ⟨⟨[], by simp, by simpa using Split.nil _⟩, Or.inr ⟨trivial, hb⟩, trivial, hw, hp, hne, ha, by simp⟩
    | cons c cs =>
      have hc : c ≠ [] := fun h => hne (by simp [h])
      have hcs : [] ∉ cs := fun h => hne (List.mem_cons_of_mem _ h)
      obtain ⟨⟨new, g1, g2, g3, g4, g5⟩, g6, g7, g8, ⟨pre, g9⟩, g10⟩ :=
        decode_split d c cs.flatten (batch - d.rows.length) hw (by omega) hc hp (aligned_joint ha hcs)
      have hlen : (d.decode c (batch - d.rows.length)).1.rows.length = d.rows.length + new.length := by
        rw [g1, List.length_append]
      by_cases hfull : (d.decode c (batch - d.rows.length)).1.rows.length = batch
      · have e : fill batch (n + 1) d (c :: cs) = ((d.decode c (batch - d.rows.length)).1,
            if (d.decode c (batch - d.rows.length)).2.isEmpty then cs else (d.decode c (batch - d.rows.length)).2 :: cs) := by
          simp only [fill]
          rw [if_pos (by simp [hfull])]
        have hfl : (fill batch (n + 1) d (c :: cs)).2.flatten =
            (d.decode c (batch - d.rows.length)).2 ++ cs.flatten := by
          rw [e]
          simp only
          split
          · next h => rw [List.isEmpty_iff.1 h]; rfl
          · rfl
        refine ⟨⟨new, ?_, ?_⟩, Or.inl ⟨?_, ?_⟩, ?_, ?_, ?_, ?_, ?_, ?_⟩
        · rw [e]; exact g1
        · rw [hfl, e, ← List.append_assoc, List.flatten_cons, ← List.append_assoc]
          exact g2
        · rw [e]; exact hfull
        · rw [e]; exact g4 (by omega)
        · rw [e]; exact g6
        · rw [e]; exact g7
        · rw [e]; exact g8
        · rw [e]
          simp only
          split
          · exact hcs
          · next h =>
            intro hm
            rcases List.mem_cons.1 hm with h' | h'
            · exact h (by rw [← h']; rfl)
            · exact hcs h'
        · rw [e]
          simp only
          split
          · exact aligned_tail ha
          · refine aligned_replace (pre := pre) (by rw [← g9]; exact ha)
        · intro _
          rw [hfl]
          simp only [List.length_append, List.flatten_cons]
          omega
      · have hr : (d.decode c (batch - d.rows.length)).2 = [] := by
          refine Decidable.byContradiction fun h => ?_
          have := g5 h
          omega
        have e : fill batch (n + 1) d (c :: cs) = fill batch n (d.decode c (batch - d.rows.length)).1 cs := by
          simp only [fill]
          have hcl := List.length_pos_iff.2 hc
          rw [if_neg (by rw [hr]; simp [hfull]; omega), hr]
          rfl
        rw [hr, List.append_nil] at g2
        obtain ⟨⟨new', k1, k2⟩, k3, k4, k5, k6, k7, k8, k9⟩ := ih (d.decode c (batch - d.rows.length)).1 cs g7
          (by simp only [List.length_cons] at hn; omega) hcs (by rw [g6]; exact aligned_tail ha) (by omega)
          (by rw [g6]; exact g8)
        rw [e]
        rw [g6] at k2 k4 k6 k8
        refine ⟨⟨new ++ new', ?_, ?_⟩, k3, k4, k5, k6, k7, k8, ?_⟩
        · rw [k1, g1, List.append_assoc]
        · rw [List.flatten_cons, ← List.append_assoc]
          exact g2.trans k2
        · intro _
          have hcl := List.length_pos_iff.2 hc
          simp only [List.flatten_cons, List.length_append]
          by_cases hcs' : cs = []
          · subst hcs'
            cases n with
            | zero => simp at hn
            | succ n => simpa [fill] using hcl
          · have := k9 hcs'
            omega

/-! ## Text -/

theorem isText_append {a b : Bytes} (ha : IsText a) (hb : IsText b) : IsText (a ++ b) := by
  obtain ⟨x, rfl⟩ := ha
  obtain ⟨y, rfl⟩ := hb
  exact ⟨x ++ y, by simp⟩

theorem isText_flatten {rows : List Bytes} (h : ∀ r ∈ rows, IsText r) : IsText rows.flatten := by
  induction rows with
  | nil => exact ⟨[], rfl⟩
  | cons r rows ih =>
    rw [List.flatten_cons]
    exact isText_append (h r (by simp)) (ih fun x hx => h x (by simp [hx]))

/-- Text can be cut before and after an ASCII character. -/
theorem isText_cut (cs : List Char) (a b : Bytes) (x : Nat) (hx : x < 0x80) (h : cs.flatMap enc = a ++ x :: b) :
    IsText a ∧ IsText b := by
  induction cs generalizing a with
  | nil =>
    have := congrArg List.length h
    simp at this
  | cons c cs ih =>
    rw [List.flatMap_cons] at h
    rcases List.append_eq_append_iff.1 h with ⟨w, hw1, hw2⟩ | ⟨w, hw1, hw2⟩
    · obtain ⟨t1, t2⟩ := ih w hw2
      rw [hw1]
      exact ⟨isText_append ⟨[c], by simp⟩ t1, t2⟩
    · cases w with
      | nil =>
        rw [List.nil_append] at hw2
        obtain ⟨t1, t2⟩ := ih [] (by rw [← hw2]; rfl)
        rw [List.append_nil] at hw1
        exact ⟨⟨[c], by simp [hw1]⟩, t2⟩
      | cons y w =>
        rw [List.cons_append, List.cons.injEq] at hw2
        obtain ⟨rfl, hw2⟩ := hw2
        rcases enc_ascii c with ⟨z, hz, hc⟩ | hc
        · rw [hc] at hw1
          have hl := congrArg List.length hw1
          simp only [List.length_append, List.length_cons, List.length_nil] at hl
          obtain rfl : a = [] := List.length_eq_zero_iff.1 (by omega)
          obtain rfl : w = [] := List.length_eq_zero_iff.1 (by omega)
          rw [List.nil_append] at hw2
          exact ⟨⟨[], rfl⟩, ⟨cs, hw2⟩⟩
        · have := hc x (by rw [hw1]; simp)
          omega

theorem isText_cut' {a b : Bytes} {x : Nat} (hx : x < 0x80) (h : IsText (a ++ x :: b)) : IsText a ∧ IsText b := by
  obtain ⟨cs, hcs⟩ := h
  exact isText_cut cs a b x hx hcs.symm

theorem ends_text {sep : Option Nat} {l t r : Bytes} (hs : ∀ s, sep = some s → s < 0x80) (ht : Ends sep t r)
    (h : IsText (l ++ t ++ r)) : IsText l ∧ IsText r := by
  cases sep with
  | some s =>
    rw [show t = [s] from ht, List.append_assoc] at h
    exact isText_cut' (hs s rfl) h
  | none =>
    rcases ht with rfl | rfl | ⟨rfl, _⟩
    · rw [List.append_assoc] at h
      exact isText_cut' (by omega) h
    · rw [List.append_assoc] at h
      have h1 := isText_cut' (a := l) (b := 10 :: r) (by omega) h
      have h2 := isText_cut' (a := []) (b := r) (by omega) h1.2
      exact ⟨h1.1, h2.2⟩
    · rw [List.append_assoc] at h
      exact isText_cut' (by omega) h

theorem Split.text {sep : Option Nat} {c rest : Bytes} {rows : List Bytes} (hs : ∀ s, sep = some s → s < 0x80)
    (h : Split sep c rows rest) (hc : IsText c) : (∀ r ∈ rows, IsText r) ∧ IsText rest := by
  induction h with
  | nil => exact ⟨by simp, hc⟩
  | cons hno ht _ ih =>
    obtain ⟨h1, h2⟩ := ends_text hs ht hc
    obtain ⟨h3, h4⟩ := ih h2
    refine ⟨?_, h4⟩
    intro r hr
    rcases List.mem_cons.1 hr with rfl | hr
    · exact h1
    · exact h3 r hr

theorem chunks_length {chunks : List Bytes} (h : [] ∉ chunks) : chunks.length ≤ chunks.flatten.length := by
  induction chunks with
  | nil => simp
  | cons c cs ih =>
    have hc : c ≠ [] := fun h' => h (by simp [h'])
    have := ih fun h' => h (List.mem_cons_of_mem _ h')
    have := List.length_pos_iff.2 hc
    simp only [List.length_cons, List.flatten_cons, List.length_append]
    omega

theorem readN_nil (batch n : Nat) (d : RecordDecoder) (h1 : d.rows = []) (h2 : d.partialLine = []) :
    readN batch n d [] = .ok [] := by
  cases n with
  | zero => rfl
  | succ n => simp [readN, fill, h1, h2]

theorem flush_ok {d : RecordDecoder} {rows : List Bytes}
    (h : (if d.partialLine.isEmpty then d.rows else d.rows ++ [d.partialLine]) = rows) (ht : IsText rows.flatten) :
    d.flush = .ok (rows, { d with rows := [], partialLine := [] }) := by
  unfold RecordDecoder.flush
  rw [h]
  exact if_pos (isUtf8_iff.2 ht)

/-- A file of text that is read from a fresh decoder. -/
theorem readN_lines (batch n : Nat) (hb : 0 < batch) (d : RecordDecoder) (chunks : List Bytes)
    (hw : d.wholeText = false) (hrows : d.rows = []) (hpart : d.partialLine = []) (hs : ∀ s, d.lineSep = some s → s < 0x80)
    (hn : chunks.flatten.length < n) (hne : [] ∉ chunks) (ha : Aligned d.lineSep chunks) (ht : IsText chunks.flatten) :
    ∃ batches, readN batch n d chunks = .ok batches ∧ Lines d.lineSep chunks.flatten batches.flatten ∧
      ∀ b ∈ batches, b ≠ [] ∧ b.length ≤ batch ∧ ∀ r ∈ b, IsText r := by
  induction n generalizing d chunks with
  | zero => omega
  | succ n ih =>
    obtain ⟨⟨new, g1, g2⟩, g3, g4, g5, g6, g7, g8, g9⟩ :=
      fill_split batch (chunks.flatten.length + 1) d chunks hw (by have := chunks_length hne; omega) hne ha
        (by rw [hrows]; exact hb) (by rw [hpart]; simp)
    rw [hrows, List.nil_append] at g1
    rw [hpart, List.nil_append] at g2
    obtain ⟨t1, t2⟩ := g2.text hs ht
    simp only [readN]
    generalize hf : fill batch (chunks.flatten.length + 1) d chunks = f at *
    obtain ⟨d', chunks'⟩ := f
    simp only at g1 g2 g3 g4 g5 g6 g7 g8 g9 t2 ⊢
    split
    · next hemp =>
      simp only [Bool.and_eq_true, List.isEmpty_iff] at hemp
      refine ⟨[], rfl, ?_, by simp⟩
      rcases g3 with ⟨h, _⟩ | ⟨h, _⟩
      · rw [hemp.1] at h
        simp at h
        omega
      · rw [hemp.2, h] at g2
        rw [← g1, hemp.1] at g2
        exact g2.lines Lines.nil
    · next hemp =>
      have hchunks : chunks ≠ [] := by
        rintro rfl
        simp only [fill, Prod.mk.injEq] at hf
        obtain ⟨rfl, _⟩ := hf
        simp [hrows, hpart] at hemp
      have hlt := g9 hchunks
      rcases g3 with ⟨hfull, hp0⟩ | ⟨hnil, hlen⟩
      · have hflush : d'.flush = .ok (new, { d' with rows := [], partialLine := [] }) := by
          exact flush_ok (by rw [hp0, g1]; rfl) (isText_flatten t1)
        rw [hp0, List.nil_append] at g2 t2
        obtain ⟨batches, k1, k2, k3⟩ := ih { d' with rows := [], partialLine := [] } chunks' g5 rfl rfl
          (by simpa only [g4] using hs) (by omega) g7 (by simpa only [g4] using g8) t2
        rw [hflush]
        simp only [k1]
        refine ⟨_, rfl, ?_, ?_⟩
        · rw [List.flatten_cons]
          simp only [g4] at k2
          exact g2.lines k2
        · intro b hb'
          rcases List.mem_cons.1 hb' with rfl | hb'
          · rw [g1] at hfull
            exact ⟨by rintro rfl; simp at hfull; omega, by omega, t1⟩
          · exact k3 b hb'
      · subst hnil
        simp only [List.flatten_nil, List.append_nil] at g2 t2
        by_cases hp0 : d'.partialLine = []
        · have hflush : d'.flush = .ok (new, { d' with rows := [], partialLine := [] }) := by
            exact flush_ok (by rw [hp0, g1]; rfl) (isText_flatten t1)
          rw [hflush]
          simp only [readN_nil]
          refine ⟨_, rfl, ?_, ?_⟩
          · rw [hp0] at g2
            simpa using g2.lines Lines.nil
          · intro b hb'
            rw [List.mem_singleton] at hb'
            subst hb'
            rw [g1] at hlen
            refine ⟨?_, by omega, t1⟩
            rintro rfl
            simp [g1, hp0] at hemp
        · have hflush : d'.flush = .ok (new ++ [d'.partialLine], { d' with rows := [], partialLine := [] }) := by
            refine flush_ok (by rw [if_neg (by simpa using hp0), g1]) ?_
            rw [List.flatten_append]
            exact isText_append (isText_flatten t1) (by simpa using t2)
          rw [hflush]
          simp only [readN_nil]
          refine ⟨_, rfl, ?_, ?_⟩
          · simpa using g2.lines (Lines.last hp0 g6)
          · intro b hb'
            rw [List.mem_singleton] at hb'
            subst hb'
            rw [g1] at hlen
            refine ⟨by simp, by simp; omega, ?_⟩
            intro r hr
            rcases List.mem_append.1 hr with hr | hr
            · exact t1 r hr
            · rw [List.mem_singleton] at hr
              rw [hr]
              exact t2

/-! ## Lines -/

theorem firstEnd_of {sep : Option Nat} {l t r : Bytes} (hl : ∀ b ∈ l, ¬ IsEnd sep b) (ht : Ends sep t r) :
    firstEnd sep (l ++ t ++ r) = some (l, r) := by
  induction l with
  | nil =>
    cases sep with
    | some s =>
      rw [show t = [s] from ht]
      simp [firstEnd, isLineEnd]
    | none =>
      rcases ht with rfl | rfl | ⟨rfl, h⟩
      · simp [firstEnd, isLineEnd]
      · simp [firstEnd, isLineEnd]
      · simp [firstEnd, isLineEnd, h]
  | cons a l ih =>
    have h0 : isLineEnd sep a (l ++ t ++ r) = 0 := isLineEnd_zero.2 (hl a (by simp))
    rw [List.cons_append, List.cons_append, firstEnd, h0]
    simp only
    rw [ih fun b hb => hl b (by simp [hb])]
    rfl

theorem firstEnd_noEnd {sep : Option Nat} {l : Bytes} (hl : ∀ b ∈ l, ¬ IsEnd sep b) : firstEnd sep l = none := by
  induction l with
  | nil => rfl
  | cons a l ih =>
    have h0 : isLineEnd sep a l = 0 := isLineEnd_zero.2 (hl a (by simp))
    rw [firstEnd, h0]
    simp only
    rw [ih fun b hb => hl b (by simp [hb])]
    rfl

theorem lines_unique {sep : Option Nat} {c : Bytes} {r r' : List Bytes} (h : Lines sep c r) (h' : Lines sep c r') :
    r = r' := by
  induction h generalizing r' with
  | nil =>
    generalize he : ([] : Bytes) = x at h'
    cases h' with
    | nil => rfl
    | last h => exact absurd he.symm h
    | line _ ht => exact absurd (List.append_eq_nil_iff.1 (List.append_eq_nil_iff.1 he.symm).1).2 (ends_ne ht)
  | last hne hno =>
    have h1 := firstEnd_noEnd hno
    cases h' with
    | nil => exact absurd rfl hne
    | last => rfl
    | line hno' ht' =>
      rw [firstEnd_of hno' ht'] at h1
      cases h1
  | @line l t rest rows hno ht h ih =>
    have h1 := firstEnd_of hno ht
    generalize he : l ++ t ++ rest = x at h' h1
    cases h' with
    | nil => exact absurd (List.append_eq_nil_iff.1 (List.append_eq_nil_iff.1 he).1).2 (ends_ne ht)
    | last _ hno' =>
      rw [firstEnd_noEnd hno'] at h1
      cases h1
    | line hno' ht' h' =>
      rw [firstEnd_of hno' ht'] at h1
      simp only [Option.some.injEq, Prod.mk.injEq] at h1
      obtain ⟨rfl, rfl⟩ := h1
      rw [ih h']

theorem lines_append {sep : Option Nat} {a b : Bytes} {r s : List Bytes} (h : Lines sep a r) (h' : Lines sep b s)
    (hend : a.getLast? = some (sep.getD 10)) : Lines sep (a ++ b) (r ++ s) := by
  induction h with
  | nil => cases hend
  | last hne hno =>
    exfalso
    refine hno _ (List.mem_of_getLast? hend) ?_
    cases sep with
    | some s => rfl
    | none => exact Or.inr rfl
  | @line line t rest rows hno ht h ih =>
    rw [List.append_assoc]
    by_cases hr : rest = []
    · subst hr
      have hrows : rows = [] := lines_unique h Lines.nil
      subst hrows
      refine Lines.line hno ?_ h'
      cases sep with
      | some x => exact ht
      | none =>
        rcases ht with ht | ht | ⟨ht, _⟩
        · exact Or.inl ht
        · exact Or.inr (Or.inl ht)
        · rw [ht] at hend
          simp at hend
    · refine Lines.line hno ?_ (ih ?_)
      · cases sep with
        | some x => exact ht
        | none =>
          rcases ht with ht | ht | ⟨ht, ht'⟩
          · exact Or.inl ht
          · exact Or.inr (Or.inl ht)
          · refine Or.inr (Or.inr ⟨ht, ?_⟩)
            cases rest with
            | nil => exact absurd rfl hr
            | cons => simpa using ht'
      · rw [List.getLast?_append] at hend
        cases hg : rest.getLast? with
        | none => exact absurd (List.getLast?_eq_none_iff.1 hg) hr
        | some z =>
          rw [hg] at hend
          simpa using hend

/-! ## Writing -/

theorem writeRows_eq (sep : Nat) (rows : List (Option Bytes)) (out buffer : Bytes) :
    writeRows sep rows out buffer = out ++ buffer ++ (rows.map fun r => r.getD [] ++ [sep]).flatten := by
  induction rows generalizing out buffer with
  | nil =>
    simp only [writeRows]
    split
    · next h => simp [List.isEmpty_iff.1 h]
    · simp
  | cons row rows ih =>
    cases row with
    | none =>
      simp only [writeRows]
      split <;> · rw [ih]; simp
    | some v =>
      simp only [writeRows]
      split <;> · rw [ih]; simp

theorem serialize_eq (sep : Nat) (rows : List (Option Bytes)) :
    serialize sep rows = (rows.map fun r => r.getD [] ++ [sep]).flatten := by
  rw [serialize, writeRows_eq]
  rfl

theorem serialize_lines (rsep : Option Nat) (wsep : Nat) (hsep : rsep = some wsep ∨ rsep = none ∧ wsep = 10)
    (rows : List (Option Bytes)) (h : ∀ v, some v ∈ rows → ∀ b ∈ v, ¬ IsEnd rsep b) :
    Lines rsep (serialize wsep rows) (rows.map fun r => r.getD []) := by
  rw [serialize_eq]
  induction rows with
  | nil => exact Lines.nil
  | cons row rows ih =>
    simp only [List.map_cons, List.flatten_cons]
    refine Lines.line ?_ ?_ (ih fun v hv => h v (by simp [hv]))
    · cases row with
      | none => simp
      | some v => exact h v (by simp)
    · rcases hsep with rfl | ⟨rfl, rfl⟩
      · rfl
      · exact Or.inl rfl

/-! ## Whole files -/

theorem fill_whole (batch n : Nat) (d : RecordDecoder) (row : Bytes) (chunks : List Bytes) (hw : d.wholeText = true)
    (hb : 1 < batch) (hn : chunks.length < n) (hne : [] ∉ chunks) (hd : d.rows = [row]) :
    fill batch n d chunks = ({ d with rows := [row ++ chunks.flatten] }, []) := by
  induction n generalizing d row chunks with
  | zero => omega
  | succ n ih =>
    cases chunks with
    | nil =>
      cases d
      simp only at hd
      simp [fill, hd]
    | cons c cs =>
      have hc : c ≠ [] := fun h => hne (by simp [h])
      have hcl := List.length_pos_iff.2 hc
      have e : d.decode c (batch - d.rows.length) = ({ d with rows := [row ++ c] }, []) := by
        unfold RecordDecoder.decode
        rw [hd, if_neg (by simp; omega), if_pos hw]
        rfl
      simp only [fill, e]
      rw [if_neg (by simp; constructor <;> omega)]
      simp only [List.isEmpty_nil, if_true]
      rw [ih { d with rows := [row ++ c] } (row ++ c) cs hw (by simp only [List.length_cons] at hn; omega)
        (fun h => hne (List.mem_cons_of_mem _ h)) rfl]
      simp

theorem readFile_whole (sep : Option Nat) (batch : Nat) (chunks : List Bytes) (hb : 1 < batch) (hne : [] ∉ chunks)
    (ht : IsText chunks.flatten) :
    readFile sep true batch chunks = .ok (if chunks.flatten = [] then [] else [[chunks.flatten]]) := by
  unfold readFile
  cases chunks with
  | nil => rw [readN_nil _ _ _ rfl rfl]; rfl
  | cons c cs =>
    have hc : c ≠ [] := fun h => hne (by simp [h])
    have hcs : [] ∉ cs := fun h => hne (List.mem_cons_of_mem _ h)
    have hnil : (c :: cs).flatten ≠ [] := by simp [hc]
    have hlen := chunks_length hne
    have hcl := List.length_pos_iff.2 hc
    rw [if_neg hnil]
    have e : RecordDecoder.decode ⟨sep, true, [], []⟩ c (batch - 0) = (⟨sep, true, [c], []⟩, []) := by
      unfold RecordDecoder.decode
      rw [if_neg (by omega)]
      simp [wholeRows, hc]
    have hfill : fill batch ((c :: cs).flatten.length + 1) ⟨sep, true, [], []⟩ (c :: cs) =
        (⟨sep, true, [(c :: cs).flatten], []⟩, []) := by
      rw [fill]
      simp only [List.length_nil, e]
      rw [if_neg (by simp; constructor <;> omega)]
      simp only [List.isEmpty_nil, if_true]
      rw [fill_whole batch _ ⟨sep, true, [c], []⟩ c cs rfl hb (by simp only [List.length_cons] at hlen; omega) hcs rfl]
      simp
    have hf : RecordDecoder.flush ⟨sep, true, [(c :: cs).flatten], []⟩ =
        .ok ([(c :: cs).flatten], ⟨sep, true, [], []⟩) := by
      unfold RecordDecoder.flush
      simp only [List.isEmpty_nil, if_true]
      rw [if_pos (isUtf8_iff.2 (by simpa using ht))]
    rw [readN, hfill]
    simp only [List.isEmpty_cons, Bool.false_and, Bool.false_eq_true, if_false]
    rw [hf]
    simp only [readN_nil]

end Verif.Io.Text
