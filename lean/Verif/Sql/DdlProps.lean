import Verif.Sql.Ddl
import Verif.Sql.NameProps
import Verif.Sql.DisplayProps

/-!
# C95: a schema printed as DDL reads back as the same schema
-/

namespace Verif.Sql.Ddl

variable {uni : Char → Bool}

namespace Spec

mutual
/-- The types that a text can express: decimals and intervals say their parameters, and there are no types
of users, no geometries and no texts inside. -/
def Plain : DT → Prop
  | .missing => False
  | .decimal p s => p ≠ none ∧ s ≠ none
  | .yearMonth s e => ∃ a b, s = some a ∧ e = some b ∧ a ≤ b
  | .dayTime s e => ∃ a b, s = some a ∧ e = some b ∧ a ≤ b
  | .char n => n < 2147483648
  | .varchar n => n < 2147483648
  | .array t _ => Plain t
  | .struct fs => Plains fs
  | .map k v _ => Plain k ∧ Plain v
  | .udt _ _ => False
  | .geometry _ => False
  | .geography _ => False
  | .unparsed _ => False
  | _ => True

/-- The same for all fields. -/
def Plains : Fields → Prop
  | .nil => True
  | .cons _ t _ _ rest => Plain t ∧ Plains rest
end

mutual
/-- What is left of a type in a text: the elements of lists and the values of maps can be NULL, metadata is
gone, a timestamp is one of the configured kind, and an interval of one field names it once. -/
def asDdl : ST → ST
  | .timestamp u .withLocal => .timestamp u .configured
  | .interval u s e => .interval u s (if s = e then none else e)
  | .list t _ => .list (asDdl t) true
  | .struct fs => .struct (asDdls fs)
  | .map k v _ => .map (asDdl k) (asDdl v) true
  | t => t

/-- The same for fields. -/
def asDdls : SFields → SFields
  | .nil => .nil
  | .cons name t nullable _ rest => .cons name (asDdl t) nullable none (asDdls rest)
end

end Spec

open Spec Verif.Sql.Spec

/-! ## The tokens of a printed type -/

/-- One space. -/
abbrev sp : Tok := .ws ' ' 1

/-- The tokens of a number. -/
def numToks (n : Int) : List Tok :=
  if n < 0 then [.punct '-', .word (Nat.toDigits 10 n.natAbs)] else [.word (Nat.toDigits 10 n.natAbs)]

/-- The token of a name. -/
def nameTok (n : Text) : Tok := if needsQuoting n then .str (tick n) .backtick else .word n

/-- The tokens of an interval type. -/
def intervalToks (name : Int → Text) (s e : Int) : List Tok :=
  [.word intervalWord, sp, .word (name s)] ++
    if s ≠ e then [sp, .word ['T', 'O'], sp, .word (name e)] else []

/-- `NOT NULL`. -/
def nnToks (nullable : Bool) : List Tok :=
  if nullable then [] else [sp, .word ['N', 'O', 'T'], sp, .word ['N', 'U', 'L', 'L']]

mutual
/-- The tokens of a type. -/
def out : DT → List Tok
  | .null => [.word ['N', 'U', 'L', 'L']]
  | .binary => [.word ['B', 'I', 'N', 'A', 'R', 'Y']]
  | .boolean => [.word ['B', 'O', 'O', 'L', 'E', 'A', 'N']]
  | .byte => [.word ['T', 'I', 'N', 'Y', 'I', 'N', 'T']]
  | .short => [.word ['S', 'H', 'O', 'R', 'T']]
  | .integer => [.word ['I', 'N', 'T']]
  | .long => [.word ['B', 'I', 'G', 'I', 'N', 'T']]
  | .float => [.word ['F', 'L', 'O', 'A', 'T']]
  | .double => [.word ['D', 'O', 'U', 'B', 'L', 'E']]
  | .decimal p s => [.word ['D', 'E', 'C', 'I', 'M', 'A', 'L'], .punct '('] ++ numToks (p.getD 0) ++ [.punct ','] ++
      numToks (s.getD 0) ++ [.punct ')']
  | .string => [.word ['S', 'T', 'R', 'I', 'N', 'G']]
  | .char n => [.word ['C', 'H', 'A', 'R'], .punct '('] ++ numToks n ++ [.punct ')']
  | .varchar n => [.word ['V', 'A', 'R', 'C', 'H', 'A', 'R'], .punct '('] ++ numToks n ++ [.punct ')']
  | .date => [.word ['D', 'A', 'T', 'E']]
  | .timestamp => [.word ['T', 'I', 'M', 'E', 'S', 'T', 'A', 'M', 'P']]
  | .timestampNtz => [.word ['T', 'I', 'M', 'E', 'S', 'T', 'A', 'M', 'P', '_', 'N', 'T', 'Z']]
  | .calendar => [.word intervalWord]
  | .yearMonth s e => intervalToks yearMonthName (s.getD 0) (e.getD 0)
  | .dayTime s e => intervalToks dayTimeName (s.getD 0) (e.getD 0)
  | .array t _ => [.word ['A', 'R', 'R', 'A', 'Y'], .punct '<'] ++ out t ++ [.punct '>']
  | .struct fs => [.word ['S', 'T', 'R', 'U', 'C', 'T'], .punct '<'] ++ outs [.punct ':', sp] true fs ++ [.punct '>']
  | .map k v _ => [.word ['M', 'A', 'P'], .punct '<'] ++ out k ++ [.punct ',', sp] ++ out v ++ [.punct '>']
  | .variant => [.word ['V', 'A', 'R', 'I', 'A', 'N', 'T']]
  | .time (some p) => [.word ['T', 'I', 'M', 'E'], .punct '('] ++ numToks p ++ [.punct ')']
  | .time none => [.word ['T', 'I', 'M', 'E']]
  | _ => []

/-- The tokens of fields. -/
def outs (sep : List Tok) (first : Bool) : Fields → List Tok
  | .nil => []
  | .cons name t nullable _ rest =>
    (if first then [] else [.punct ',', sp]) ++ nameTok name :: sep ++ out t ++ nnToks nullable ++ outs sep false rest
end

/-- The text of tokens. -/
def raws (ts : List Tok) : Text := ts.flatMap Tok.raw

theorem raws_append (a b : List Tok) : raws (a ++ b) = raws a ++ raws b := by simp [raws]

theorem raws_cons (t : Tok) (b : List Tok) : raws (t :: b) = t.raw ++ raws b := by simp [raws]

theorem raws_num (n : Int) : raws (numToks n) = intText n := by
  rw [numToks, intText]
  split <;> simp [raws, Tok.raw]

theorem raws_nn (b : Bool) : raws (nnToks b) = notNullText b := by
  cases b <;> rfl

theorem raw_name (n : Text) : (nameTok n).raw = quoteFieldName n := by
  rw [nameTok, quoteFieldName]
  split
  · exact (doubleTicks_eq n).symm
  · rfl

theorem raws_interval (name : Int → Text) (s e : Int) :
    intervalText name (some s) (some e) = raws (intervalToks name s e) := by
  simp only [intervalText, intervalToks]
  split <;> simp [raws, Tok.raw]

theorem interval_text {name : Int → Text} {s e : Option Int} (h : ∃ a b, s = some a ∧ e = some b ∧ a ≤ b) :
    intervalText name s e = raws (intervalToks name (s.getD 0) (e.getD 0)) := by
  obtain ⟨a, b, rfl, rfl, _⟩ := h
  exact raws_interval _ _ _

mutual
/-- What is printed are the tokens. -/
theorem type_raws : ∀ (t : DT), Plain t → typeText t = some (raws (out t))
  | .missing, h => h.elim
  | .null, _ | .binary, _ | .boolean, _ | .byte, _ | .short, _ | .integer, _ | .long, _ | .float, _ | .double, _
  | .string, _ | .date, _ | .timestamp, _ | .timestampNtz, _ | .calendar, _ | .variant, _ | .time none, _ => rfl
  | .decimal p s, h => by
    obtain ⟨hp, hs⟩ := h
    cases p with
    | none => exact absurd rfl hp
    | some p =>
      cases s with
      | none => exact absurd rfl hs
      | some s =>
        simp only [typeText, out, raws_append, raws_num, optText, Option.getD_some]
        simp [raws, Tok.raw]
  | .char n, _ => by
    simp only [typeText, out, raws_append, raws_num]
    simp [raws, Tok.raw]
  | .varchar n, _ => by
    simp only [typeText, out, raws_append, raws_num]
    simp [raws, Tok.raw]
  | .time (some n), _ => by
    simp only [typeText, out, raws_append, raws_num]
    simp [raws, Tok.raw]
  | .yearMonth s e, h => by simp only [typeText, out, interval_text h]
  | .dayTime s e, h => by simp only [typeText, out, interval_text h]
  | .array t _, h => by
    simp only [typeText, out, type_raws t h, raws_append]
    simp [raws, Tok.raw]
  | .struct fs, h => by
    have := fields_raws [.punct ':', sp] true fs h
    have e : raws [.punct ':', sp] = [':', ' '] := rfl
    rw [e] at this
    simp only [typeText, out, this, raws_append]
    simp [raws, Tok.raw]
  | .map k v _, h => by
    simp only [typeText, out, type_raws k h.1, type_raws v h.2, raws_append]
    simp [raws, Tok.raw]
  | .udt _ _, h => h.elim
  | .geometry _, h => h.elim
  | .geography _, h => h.elim
  | .unparsed _, h => h.elim

theorem fields_raws (sep : List Tok) : ∀ (first : Bool) (fs : Fields), Plains fs →
    fieldsText (raws sep) first fs = some (raws (outs sep first fs))
  | _, .nil, _ => rfl
  | first, .cons name t nullable m rest, h => by
    rw [fieldsText, type_raws t h.1]
    simp only
    rw [fields_raws sep false rest h.2, outs]
    cases first <;> simp only [raws_append, raws_cons, raws_nn, raw_name] <;> simp [raws, Tok.raw]
end

/-! ## The tokenizer on printed types -/

/-- The tokenizer gives these tokens back. -/
def L (uni : Char → Bool) (ts : List Tok) : Prop := Lexes uni (raws ts) ts

/-- What can follow a word here. -/
def Fol : List Tok → Prop
  | [] => True
  | .punct c :: _ => c ∈ ['(', ')', ',', ':', '<', '>']
  | .ws c n :: .word (a :: _) :: _ => c = ' ' ∧ n = 1 ∧ a.isAlpha = true
  | _ => False

theorem L_nil : L uni [] := .nil

theorem L_cons {t : Tok} {ts : List Tok} (h : Ok uni t (raws ts)) (hl : L uni ts) : L uni (t :: ts) := by
  rw [L, raws_cons]
  exact .cons (lexOne_iff.mpr ⟨rfl, h⟩) hl

/-- Letters, digits and underscores. -/
def Wordy (w : Text) : Prop := w ≠ [] ∧ ∀ c ∈ w, c.isAlphanum = true ∨ c = '_'

theorem wordy_word {w : Text} (h : Wordy w) : ∀ c ∈ w, isWordChar uni c = true := by
  intro c hc
  rcases h.2 c hc with h | h
  · simp [isWordChar, h]
  · simp [isWordChar, h]

theorem fol_head {ts : List Tok} (h : Fol ts) : ∀ c, (raws ts).head? = some c →
    c = ' ' ∨ c ∈ ['(', ')', ',', ':', '<', '>'] := by
  intro c hc
  match ts, h with
  | [], _ => cases hc
  | .punct d :: r, h =>
    rw [raws_cons] at hc
    cases hc
    exact .inr h
  | .ws d n :: .word (a :: w) :: r, h =>
    obtain ⟨rfl, rfl, _⟩ := h
    rw [raws_cons] at hc
    cases hc
    exact .inl rfl

theorem special_not_word {c : Char} (h : c = ' ' ∨ c ∈ ['(', ')', ',', ':', '<', '>']) : isWordChar uni c = false := by
  have h2 : c.isAlphanum = false ∧ (c == '_') = false ∧ (128 ≤ c.toNat) = False := by
    simp only [List.mem_cons, List.not_mem_nil, or_false] at h
    rcases h with rfl | rfl | rfl | rfl | rfl | rfl | rfl <;> decide
  simp [isWordChar, h2.1, h2.2.1, h2.2.2]

theorem alpha_not {a : Char} (h : a.isAlpha = true) : isBlank a = false ∧ isQuote a = false := by
  constructor
  · cases hb : isBlank a with
    | false => rfl
    | true =>
      simp only [isBlank, Bool.or_eq_true, beq_iff_eq] at hb
      rcases hb with rfl | rfl <;> cases h
  · cases hb : isQuote a with
    | false => rfl
    | true =>
      simp only [isQuote, Bool.or_eq_true, beq_iff_eq] at hb
      rcases hb with rfl | rfl <;> cases h

theorem L_word {w : Text} {ts : List Tok} (hw : Wordy w) (hf : Fol ts) (hl : L uni ts) : L uni (.word w :: ts) := by
  refine L_cons ⟨hw.1, wordy_word hw, fun c hc => special_not_word (fol_head hf c hc), ?_⟩ hl
  refine strTok_of_ahead (uni := uni) hw.1 (wordy_word hw) ⟨?_, ?_⟩
  · intro c q _ _ hd
    match ts, hf with
    | [], _ => cases hd
    | .punct d :: r, hf =>
      rw [raws_cons] at hd
      simp only [Fol, List.mem_cons, List.not_mem_nil, or_false] at hf
      rcases hf with rfl | rfl | rfl | rfl | rfl | rfl <;> (cases hd; decide)
    | .ws d n :: .word (a :: w) :: r, hf =>
      obtain ⟨rfl, rfl, ha⟩ := hf
      rw [raws_cons, raws_cons] at hd
      have hb := alpha_not ha
      have : (Tok.ws ' ' 1).raw ++ ((Tok.word (a :: w)).raw ++ raws r) = ' ' :: a :: (w ++ raws r) := rfl
      rw [this, List.dropWhile_cons_of_pos (by decide), List.dropWhile_cons_of_neg (by rw [hb.1]; decide)] at hd
      cases hd
      exact hb.2
  · intro q _ h1
    rcases fol_head hf _ h1 with h | h
    · exact absurd h (by decide)
    · exact absurd h (by decide)

theorem L_tick {n : Text} {ts : List Tok} (hf : Fol ts) (hl : L uni ts) : L uni (.str (tick n) .backtick :: ts) := by
  rw [L, raws_cons]
  refine .cons (C88_tick n (raws ts) ?_).1 hl
  intro h
  rcases fol_head hf _ h with h | h
  · exact absurd h (by decide)
  · exact absurd h (by decide)

theorem L_punct {c : Char} {ts : List Tok} (hc : c ∈ ['(', ')', ',', ':', '<', '>']) (hl : L uni ts) :
    L uni (.punct c :: ts) := by
  refine L_cons ?_ hl
  simp only [List.mem_cons, List.not_mem_nil, or_false] at hc
  rcases hc with rfl | rfl | rfl | rfl | rfl | rfl <;> exact ⟨by decide, fun h => absurd h (by decide), fun h => absurd h (by decide), fun h => absurd h (by decide)⟩

theorem L_space {ts : List Tok} (h : (raws ts).head? ≠ some ' ') (hl : L uni ts) : L uni (sp :: ts) :=
  L_cons ⟨by decide, by decide, h⟩ hl

theorem wordy_head {w : Text} (hw : Wordy w) (ts : List Tok) :
    (raws (.word w :: ts)).head? ≠ some ' ' ∧ (raws (.word w :: ts)).head? ≠ some '-' := by
  rw [raws_cons]
  cases w with
  | nil => exact absurd rfl hw.1
  | cons c w =>
    have := hw.2 c (by simp)
    constructor
    · intro h; cases h; revert this; decide
    · intro h; cases h; revert this; decide

theorem wordy_digits (n : Nat) : Wordy (Nat.toDigits 10 n) := by
  refine ⟨Nat.toDigits_ne_nil, fun c hc => .inl ?_⟩
  have := toDigits_digits n c hc
  simp [Char.isAlphanum, this]

theorem L_num {n : Int} {ts : List Tok} (hf : Fol ts) (hl : L uni ts) : L uni (numToks n ++ ts) := by
  have h := L_word (wordy_digits n.natAbs) hf hl
  rw [numToks]
  split
  · refine L_cons (t := .punct '-') ⟨by decide, fun _ => (wordy_head (wordy_digits _) ts).2, fun h => absurd h (by decide), fun h => absurd h (by decide)⟩ h
  · exact h

theorem fol_punct {c : Char} {ts : List Tok} (h : c ∈ ['(', ')', ',', ':', '<', '>']) : Fol (.punct c :: ts) := h

/-- A word of letters, as the keywords are. -/
def Kw (w : Text) : Prop := w ≠ [] ∧ (∀ c, w.head? = some c → c.isAlpha = true) ∧ ∀ c ∈ w, c.isAlphanum = true ∨ c = '_'

theorem Kw.wordy {w : Text} (h : Kw w) : Wordy w := ⟨h.1, h.2.2⟩

theorem fol_space {w : Text} {ts : List Tok} (h : Kw w) : Fol (sp :: .word w :: ts) := by
  cases w with
  | nil => exact absurd rfl h.1
  | cons a w => exact ⟨rfl, rfl, h.2.1 a rfl⟩

/-- Closed keywords. -/
def kwB (w : Text) : Bool :=
  (match w.head? with | some c => c.isAlpha | none => false) && w.all (fun c => c.isAlphanum || c == '_')

theorem kw_of {w : Text} (h : kwB w = true) : Kw w := by
  cases w with
  | nil => cases h
  | cons a w =>
    simp only [kwB, List.head?_cons, Bool.and_eq_true, List.all_eq_true, Bool.or_eq_true, beq_iff_eq] at h
    exact ⟨by simp, (fun c hc => by cases hc; exact h.1), h.2⟩

theorem L_kw {w : Text} (hw : kwB w = true) {ts : List Tok} (hf : Fol ts) (hl : L uni ts) : L uni (.word w :: ts) :=
  L_word (kw_of hw).wordy hf hl

theorem L_spkw {w : Text} (hw : kwB w = true) {ts : List Tok} (hf : Fol ts) (hl : L uni ts) : L uni (sp :: .word w :: ts) :=
  L_space (wordy_head (kw_of hw).wordy ts).1 (L_kw hw hf hl)

theorem L_name {n : Text} {ts : List Tok} (hf : Fol ts) (hl : L uni ts) :
    L uni (nameTok n :: ts) ∧ (raws (nameTok n :: ts)).head? ≠ some ' ' := by
  rw [nameTok]
  split
  · exact ⟨L_tick hf hl, by simp [raws_cons, Tok.raw, tick]⟩
  · rename_i h
    have hw : Wordy n := by
      simp only [needsQuoting, Bool.or_eq_true, not_or, Bool.not_eq_true, Bool.not_eq_false',
        List.isEmpty_eq_false_iff, List.all_eq_true, beq_iff_eq] at h
      exact ⟨h.1.1, h.2⟩
    exact ⟨L_word hw hf hl, (wordy_head hw ts).1⟩

theorem kw_yearMonth {n : Int} {d f : IField} (h : yearMonthOf (some n) d = some f) : kwB (yearMonthName n) = true := by
  rw [yearMonthOf] at h
  rw [yearMonthName]
  split
  · rfl
  · split
    · rfl
    · rename_i h1 h2
      rw [if_neg h1, if_neg h2] at h
      cases h

theorem kw_dayTime {n : Int} {d f : IField} (h : dayTimeOf (some n) d = some f) : kwB (dayTimeName n) = true := by
  rw [dayTimeOf] at h
  rw [dayTimeName]
  split
  · rfl
  · split
    · rfl
    · split
      · rfl
      · split
        · rfl
        · rename_i h1 h2 h3 h4
          rw [if_neg h1, if_neg h2, if_neg h3, if_neg h4] at h
          cases h

theorem L_interval {name : Int → Text} {s e : Int} (hs : kwB (name s) = true) (he : kwB (name e) = true)
    {ts : List Tok} (hf : Fol ts) (hl : L uni ts) : L uni (intervalToks name s e ++ ts) := by
  rw [intervalToks]
  split
  · have h3 : L uni (sp :: .word (name e) :: ts) := L_spkw he hf hl
    have h2 : L uni (sp :: .word ['T', 'O'] :: sp :: .word (name e) :: ts) :=
      L_spkw (by decide) (fol_space (kw_of he)) h3
    have h1 : L uni (sp :: .word (name s) :: sp :: .word ['T', 'O'] :: sp :: .word (name e) :: ts) :=
      L_spkw hs (fol_space (kw_of (by decide))) h2
    exact L_kw (by decide) (fol_space (kw_of hs)) h1
  · exact L_kw (by decide) (fol_space (kw_of hs)) (L_spkw hs hf hl)

theorem interval_some {s e : Option Int} (h : ∃ a b, s = some a ∧ e = some b ∧ a ≤ b) :
    s = some (s.getD 0) ∧ e = some (e.getD 0) ∧ s.getD 0 ≤ e.getD 0 := by
  obtain ⟨a, b, rfl, rfl, h⟩ := h
  exact ⟨rfl, rfl, h⟩

theorem fol_nn {b : Bool} {ts : List Tok} (h : Fol ts) : Fol (nnToks b ++ ts) := by
  cases b
  · exact fol_space (kw_of (by decide))
  · exact h

theorem L_nn {b : Bool} {ts : List Tok} (hf : Fol ts) (h : L uni ts) : L uni (nnToks b ++ ts) := by
  cases b
  · exact L_spkw (by decide) (fol_space (kw_of (by decide))) (L_spkw (by decide) hf h)
  · exact h

/-- A printed type begins with a word of letters. -/
theorem out_head : ∀ (t : DT), Plain t → ∃ k r, out t = .word k :: r ∧ kwB k = true
  | .missing, h => h.elim
  | .null, _ | .binary, _ | .boolean, _ | .byte, _ | .short, _ | .integer, _ | .long, _ | .float, _ | .double, _
  | .string, _ | .date, _ | .timestamp, _ | .timestampNtz, _ | .calendar, _ | .variant, _ | .time none, _ =>
    ⟨_, _, rfl, by decide⟩
  | .decimal p s, _ => ⟨_, _, rfl, by decide⟩
  | .char n, _ => ⟨_, _, rfl, by decide⟩
  | .varchar n, _ => ⟨_, _, rfl, by decide⟩
  | .time (some n), _ => ⟨_, _, rfl, by decide⟩
  | .yearMonth s e, _ => ⟨_, _, rfl, by decide⟩
  | .dayTime s e, _ => ⟨_, _, rfl, by decide⟩
  | .array t _, _ => ⟨_, _, rfl, by decide⟩
  | .struct fs, _ => ⟨_, _, rfl, by decide⟩
  | .map k v _, _ => ⟨_, _, rfl, by decide⟩
  | .udt _ _, h => h.elim
  | .geometry _, h => h.elim
  | .geography _, h => h.elim
  | .unparsed _, h => h.elim

mutual
theorem L_out : ∀ (t : DT), Plain t → ∀ {s : ST}, toSpec uni t = some s → ∀ {ts : List Tok}, Fol ts → L uni ts → L uni (out t ++ ts)
  | .missing, h, _, _, _, _, _ => h.elim
  | .null, _, _, _, _, hf, hl | .binary, _, _, _, _, hf, hl | .boolean, _, _, _, _, hf, hl | .byte, _, _, _, _, hf, hl
  | .short, _, _, _, _, hf, hl | .integer, _, _, _, _, hf, hl | .long, _, _, _, _, hf, hl | .float, _, _, _, _, hf, hl
  | .double, _, _, _, _, hf, hl | .string, _, _, _, _, hf, hl | .date, _, _, _, _, hf, hl | .timestamp, _, _, _, _, hf, hl
  | .timestampNtz, _, _, _, _, hf, hl | .calendar, _, _, _, _, hf, hl | .variant, _, _, _, _, hf, hl
  | .time none, _, _, _, _, hf, hl => L_kw (by decide) hf hl
  | .decimal p s, _, _, _, ts, hf, hl => by
    have h1 : L uni (.punct ')' :: ts) := L_punct (by decide) hl
    have h2 := L_num (n := s.getD 0) (fol_punct (by decide)) h1
    have h3 : L uni (.punct ',' :: (numToks (s.getD 0) ++ .punct ')' :: ts)) := L_punct (by decide) h2
    have h4 := L_num (n := p.getD 0) (fol_punct (by decide)) h3
    have h5 : L uni (.word ['D', 'E', 'C', 'I', 'M', 'A', 'L'] :: .punct '(' ::
        (numToks (p.getD 0) ++ .punct ',' :: (numToks (s.getD 0) ++ .punct ')' :: ts))) :=
      L_kw (by decide) (fol_punct (by decide)) (L_punct (by decide) h4)
    simpa [out] using h5
  | .char n, _, _, _, ts, hf, hl => by
    have h2 := L_num (n := n) (fol_punct (by decide)) (L_punct (c := ')') (by decide) hl)
    have h3 : L uni (.word ['C', 'H', 'A', 'R'] :: .punct '(' :: (numToks n ++ .punct ')' :: ts)) :=
      L_kw (by decide) (fol_punct (by decide)) (L_punct (by decide) h2)
    simpa [out] using h3
  | .varchar n, _, _, _, ts, hf, hl => by
    have h2 := L_num (n := n) (fol_punct (by decide)) (L_punct (c := ')') (by decide) hl)
    have h3 : L uni (.word ['V', 'A', 'R', 'C', 'H', 'A', 'R'] :: .punct '(' :: (numToks n ++ .punct ')' :: ts)) :=
      L_kw (by decide) (fol_punct (by decide)) (L_punct (by decide) h2)
    simpa [out] using h3
  | .time (some n), _, _, _, ts, hf, hl => by
    have h2 := L_num (n := n) (fol_punct (by decide)) (L_punct (c := ')') (by decide) hl)
    have h3 : L uni (.word ['T', 'I', 'M', 'E'] :: .punct '(' :: (numToks n ++ .punct ')' :: ts)) :=
      L_kw (by decide) (fol_punct (by decide)) (L_punct (by decide) h2)
    simpa [out] using h3
  | .yearMonth s e, h, _, hs, ts, hf, hl => by
    obtain ⟨h1, h2, _⟩ := interval_some h
    rw [out]
    rw [h1, h2, toSpec] at hs
    split at hs
    · cases hs
    · rename_i f hf1
      split at hs
      · cases hs
      · rename_i g hg
        exact L_interval (kw_yearMonth hf1) (kw_yearMonth hg) hf hl
  | .dayTime s e, h, _, hs, ts, hf, hl => by
    obtain ⟨h1, h2, _⟩ := interval_some h
    rw [out]
    rw [h1, h2, toSpec] at hs
    split at hs
    · cases hs
    · rename_i f hf1
      split at hs
      · cases hs
      · rename_i g hg
        exact L_interval (kw_dayTime hf1) (kw_dayTime hg) hf hl
  | .array t _, h, _, hs, ts, hf, hl => by
    rw [toSpec] at hs
    split at hs
    · cases hs
    · rename_i t' ht
      have h2 := L_out t h ht (ts := .punct '>' :: ts) (fol_punct (by decide)) (L_punct (by decide) hl)
      have h3 : L uni (.word ['A', 'R', 'R', 'A', 'Y'] :: .punct '<' :: (out t ++ .punct '>' :: ts)) :=
        L_kw (by decide) (fol_punct (by decide)) (L_punct (by decide) h2)
      simpa [out] using h3
  | .struct fs, h, _, hs, ts, hf, hl => by
    rw [toSpec] at hs
    split at hs
    · cases hs
    · rename_i t' ht
      have h2 := (L_outs true true fs h ht (ts := .punct '>' :: ts) (fol_punct (by decide)) (L_punct (by decide) hl)).1
      have h3 : L uni (.word ['S', 'T', 'R', 'U', 'C', 'T'] :: .punct '<' :: (outs [.punct ':', sp] true fs ++ .punct '>' :: ts)) :=
        L_kw (by decide) (fol_punct (by decide)) (L_punct (by decide) h2)
      simpa [out] using h3
  | .map k v _, h, _, hs, ts, hf, hl => by
    rw [toSpec] at hs
    split at hs
    · cases hs
    · rename_i k' hk
      split at hs
      · cases hs
      · rename_i v' hv
        have h2 := L_out v h.2 hv (ts := .punct '>' :: ts) (fol_punct (by decide)) (L_punct (by decide) hl)
        have hh : (raws (out v ++ .punct '>' :: ts)).head? ≠ some ' ' := by
          obtain ⟨w, r, e, hw⟩ := out_head v h.2
          rw [e]
          exact (wordy_head (kw_of hw).wordy _).1
        have h4 := L_out k h.1 hk (ts := .punct ',' :: sp :: (out v ++ .punct '>' :: ts)) (fol_punct (by decide))
          (L_punct (by decide) (L_space hh h2))
        have h3 : L uni (.word ['M', 'A', 'P'] :: .punct '<' :: (out k ++ .punct ',' :: sp :: (out v ++ .punct '>' :: ts))) :=
          L_kw (by decide) (fol_punct (by decide)) (L_punct (by decide) h4)
        simpa [out] using h3
  | .udt _ _, h, _, _, _, _, _ => h.elim
  | .geometry _, h, _, _, _, _, _ => h.elim
  | .geography _, h, _, _, _, _, _ => h.elim
  | .unparsed _, h, _, _, _, _, _ => h.elim

theorem L_outs (colon : Bool) : ∀ (first : Bool) (fs : Fields), Plains fs → ∀ {s : SFields}, toSpecs uni fs = some s →
    ∀ {ts : List Tok}, Fol ts → L uni ts →
      L uni (outs (if colon then [.punct ':', sp] else [sp]) first fs ++ ts) ∧
      (first = false → Fol (outs (if colon then [.punct ':', sp] else [sp]) first fs ++ ts))
  | _, .nil, _, _, _, ts, hf, hl => ⟨hl, fun _ => hf⟩
  | first, .cons name t nullable m rest, h, s, hs, ts, hf, hl => by
    rw [toSpecs] at hs
    split at hs
    · cases hs
    · rename_i t' ht
      split at hs
      · cases hs
      · rename_i r' hr
        obtain ⟨f2, f1⟩ := L_outs colon false rest h.2 hr hf hl
        have f1 := f1 rfl
        have e : outs (if colon then [.punct ':', sp] else [sp]) first (.cons name t nullable m rest) ++ ts =
            (if first then [] else [.punct ',', sp]) ++ (nameTok name :: ((if colon then [.punct ':', sp] else [sp]) ++ (out t ++
              (nnToks nullable ++ (outs (if colon then [.punct ':', sp] else [sp]) false rest ++ ts))))) := by
          rw [outs]
          simp
        rw [e]
        generalize outs (if colon then [.punct ':', sp] else [sp]) false rest ++ ts = tl at f1 f2
        have h1 := L_out t h.1 ht (fol_nn (b := nullable) f1) (L_nn (b := nullable) f1 f2)
        obtain ⟨w, r, ew, hw⟩ := out_head t h.1
        have hsp : L uni (sp :: (out t ++ (nnToks nullable ++ tl))) ∧ Fol (sp :: (out t ++ (nnToks nullable ++ tl))) := by
          rw [ew] at h1 ⊢
          exact ⟨L_space (wordy_head (kw_of hw).wordy _).1 h1, fol_space (kw_of hw)⟩
        have := L_name (uni := uni) (n := name) (ts := (if colon then [.punct ':', sp] else [sp]) ++ (out t ++ (nnToks nullable ++ tl)))
          (by
            cases colon
            · exact hsp.2
            · exact fol_punct (by decide))
          (by
            cases colon
            · exact hsp.1
            · exact L_punct (by decide) hsp.1)
        cases first
        · exact ⟨L_punct (by decide) (L_space this.2 this.1), fun _ => fol_punct (by decide)⟩
        · exact ⟨this.1, fun h => by cases h⟩
end

/-! ## The parser on printed types -/

/-- The tokens without white space. -/
def cl (ts : List Tok) : List Tok := ts.filter (!·.isWhitespace)

theorem cl_append (a b : List Tok) : cl (a ++ b) = cl a ++ cl b := List.filter_append ..

theorem cl_word (w : Text) (ts : List Tok) : cl (.word w :: ts) = .word w :: cl ts := rfl
theorem cl_punct (c : Char) (ts : List Tok) : cl (.punct c :: ts) = .punct c :: cl ts := rfl
theorem cl_sp (ts : List Tok) : cl (sp :: ts) = cl ts := rfl
theorem cl_nil : cl [] = [] := rfl

theorem cl_num (n : Int) : cl (numToks n) = numToks n := by
  rw [numToks]; split <;> rfl

theorem cl_name (n : Text) (ts : List Tok) : cl (nameTok n :: ts) = nameTok n :: cl ts := by
  rw [nameTok]; split <;> rfl

/-- What can follow a type. -/
def Stop : List Tok → Prop
  | [] => True
  | .punct c :: _ => c = ',' ∨ c = '>'
  | .word w :: _ => w = ['N', 'O', 'T']
  | _ => False

theorem stop_expectP {c : Char} {r : List Tok} (h : Stop r) (h1 : c ≠ ',') (h2 : c ≠ '>') : expectP c r = none := by
  match r, h with
  | [], _ => rfl
  | .word w :: _, _ => rfl
  | .punct d :: _, h =>
    rw [expectP, if_neg]
    rintro rfl
    exact h.elim h1 h2

theorem stop_expectK {k : Text} {r : List Tok} (h : Stop r) (h1 : k ≠ ['N', 'O', 'T']) : expectK k r = none := by
  match r, h with
  | [], _ => rfl
  | .punct d :: _, _ => rfl
  | .word w :: _, h =>
    have h : w = ['N', 'O', 'T'] := h
    subst h
    rw [expectK, if_neg]
    exact fun e => h1 e.symm

theorem stop_optParen {r : List Tok} (h : Stop r) : optParen r = (none, r) := by
  rw [optParen, paren, stop_expectP h (by decide) (by decide)]

theorem stop_zone {r : List Tok} (h : Stop r) : zoneOf r = (.configured, r) := by
  rw [zoneOf, stop_expectK h (by decide)]
  simp only
  rw [stop_expectK h (by decide)]

theorem stop_to {u : List Tok → Option (IField × List Tok)} {r : List Tok} (h : Stop r) : toField u r = (none, r) := by
  rw [toField, stop_expectK h (by decide)]

theorem stop_fields {r : List Tok} (h : Stop r) : yearMonthField r = none ∧ dayTimeField r = none := by
  match r, h with
  | [], _ => exact ⟨rfl, rfl⟩
  | .punct d :: _, _ => exact ⟨rfl, rfl⟩
  | .word w :: _, h =>
    have h : w = ['N', 'O', 'T'] := h
    subst h
    exact ⟨rfl, rfl⟩

theorem num_lit {n : Int} {r : List Tok} (h1 : -9223372036854775808 ≤ n) (h2 : n < 9223372036854775808) :
    intLit (numToks n ++ r) = some (n, r) := by
  have hv := toDigits_val n.natAbs
  have hd : (Nat.toDigits 10 n.natAbs).all Char.isDigit = true := (toDigits_digits _).all
  rw [numToks]
  split
  · rename_i hn
    have hnum : number true (Nat.toDigits 10 n.natAbs) = some n := by
      rw [number, if_pos ⟨Nat.toDigits_ne_nil, hd⟩, if_pos rfl, hv, if_pos (by omega)]
      exact congrArg some (by omega)
    simp only [List.cons_append, List.nil_append, intLit, if_true, hnum]
  · rename_i hn
    have hnum : number false (Nat.toDigits 10 n.natAbs) = some n := by
      rw [number, if_pos ⟨Nat.toDigits_ne_nil, hd⟩, if_neg (by decide), hv, if_pos (by omega)]
      exact congrArg some (by omega)
    simp only [List.cons_append, List.nil_append, intLit, hnum]

theorem num_paren {n : Int} {r : List Tok} (h1 : -9223372036854775808 ≤ n) (h2 : n < 9223372036854775808) :
    paren (.punct '(' :: (numToks n ++ .punct ')' :: r)) = some (n, r) := by
  have e : ∀ ts, expectP '(' (.punct '(' :: ts) = some ts := fun _ => rfl
  have e' : ∀ ts, expectP ')' (.punct ')' :: ts) = some ts := fun _ => rfl
  rw [paren, e]
  simp only
  rw [num_lit h1 h2]
  simp only
  rw [e']

theorem parse_simple {w : Text} {t : ST} (hw : headOf (kw w) = .simple t) {n : Nat} {r : List Tok} (hn : 1 ≤ n) :
    parseType n (.word w :: r) = some (t, r) := by
  obtain ⟨m, rfl⟩ : ∃ m, n = m + 1 := ⟨n - 1, by omega⟩
  rw [parseType]
  simp only [hw]

theorem yearMonth_read {n : Int} {d f : IField} (h : yearMonthOf (some n) d = some f) (r : List Tok) :
    yearMonthField (.word (yearMonthName n) :: r) = some (f, r) := by
  rw [yearMonthOf] at h
  rw [yearMonthName]
  split at h
  · rename_i h0; cases h; subst h0; rfl
  · split at h
    · rename_i h1; cases h; subst h1; rfl
    · cases h

theorem dayTime_read {n : Int} {d f : IField} (h : dayTimeOf (some n) d = some f) (r : List Tok) :
    dayTimeField (.word (dayTimeName n) :: r) = some (f, r) ∧ yearMonthField (.word (dayTimeName n) :: r) = none := by
  rw [dayTimeOf] at h
  rw [dayTimeName]
  split at h
  · rename_i h0; cases h; subst h0; exact ⟨rfl, rfl⟩
  · split at h
    · rename_i h0; cases h; subst h0; exact ⟨rfl, rfl⟩
    · split at h
      · rename_i h0; cases h; subst h0; exact ⟨rfl, rfl⟩
      · split at h
        · rename_i h0; cases h; subst h0; exact ⟨rfl, rfl⟩
        · cases h

theorem yearMonth_index {a b : Int} {d d' f g : IField} (hf : yearMonthOf (some a) d = some f)
    (hg : yearMonthOf (some b) d' = some g) : (f.index : Int) = a ∧ (g.index : Int) = b := by
  rw [yearMonthOf] at hf hg
  constructor
  · repeat' split at hf
    all_goals first | cases hf | skip
    all_goals simp_all [IField.index]
  · repeat' split at hg
    all_goals first | cases hg | skip
    all_goals simp_all [IField.index]

theorem dayTime_index {a b : Int} {d d' f g : IField} (hf : dayTimeOf (some a) d = some f)
    (hg : dayTimeOf (some b) d' = some g) : (f.index : Int) = a + 2 ∧ (g.index : Int) = b + 2 := by
  rw [dayTimeOf] at hf hg
  constructor
  · repeat' split at hf
    all_goals first | cases hf | skip
    all_goals simp_all [IField.index]
  · repeat' split at hg
    all_goals first | cases hg | skip
    all_goals simp_all [IField.index]

theorem IField.index_inj {f g : IField} (h : f.index = g.index) : f = g := by
  cases f <;> cases g <;> first | rfl | cases h

theorem interval_cases {u : IUnit} {f g : IField} (h : f.index ≤ g.index) :
    intervalType u f (if f = g then none else some g) = some (.interval u (some f) (if some f = some g then none else some g)) := by
  by_cases e : f = g
  · subst e
    simp [intervalType]
  · have : ¬ g.index ≤ f.index := fun h2 => e (IField.index_inj (by omega))
    simp [e, intervalType, this]

theorem to_read {unit : List Tok → Option (IField × List Tok)} {w : Text} {g : IField} {r : List Tok}
    (h : unit (.word w :: r) = some (g, r)) : toField unit (.word ['T', 'O'] :: .word w :: r) = (some g, r) := by
  have e : expectK ['T', 'O'] (.word ['T', 'O'] :: .word w :: r) = some (.word w :: r) := rfl
  rw [toField, e]
  simp only
  rw [h]

/-- Types without types inside. -/
def leaf : DT → Bool
  | .array _ _ => false
  | .struct _ => false
  | .map _ _ _ => false
  | _ => true

theorem parse_leaf : ∀ (t : DT), leaf t = true → Plain t → ∀ {s : ST}, toSpec uni t = some s → ∀ {n : Nat} {r : List Tok},
    (cl (out t)).length ≤ n → Stop r → parseType n (cl (out t) ++ r) = some (asDdl s, r)
  | .missing, _, h, _, _, _, _, _, _ => h.elim
  | .null, _, _, _, hs, _, _, hn, _ => by cases hs; exact parse_simple rfl hn
  | .binary, _, _, _, hs, _, _, hn, _ => by cases hs; exact parse_simple rfl hn
  | .boolean, _, _, _, hs, _, _, hn, _ => by cases hs; exact parse_simple rfl hn
  | .byte, _, _, _, hs, _, _, hn, _ => by cases hs; exact parse_simple rfl hn
  | .short, _, _, _, hs, _, _, hn, _ => by cases hs; exact parse_simple rfl hn
  | .integer, _, _, _, hs, _, _, hn, _ => by cases hs; exact parse_simple rfl hn
  | .long, _, _, _, hs, _, _, hn, _ => by cases hs; exact parse_simple rfl hn
  | .float, _, _, _, hs, _, _, hn, _ => by cases hs; exact parse_simple rfl hn
  | .double, _, _, _, hs, _, _, hn, _ => by cases hs; exact parse_simple rfl hn
  | .string, _, _, _, hs, _, _, hn, _ => by cases hs; exact parse_simple rfl hn
  | .date, _, _, _, hs, _, _, hn, _ => by cases hs; exact parse_simple rfl hn
  | .variant, _, _, _, hs, _, _, hn, _ => by cases hs; exact parse_simple rfl hn
  | .timestamp, _, _, _, hs, n, r, hn, hr => by
    cases hs
    obtain ⟨m, rfl⟩ : ∃ m, n = m + 1 := ⟨n - 1, by have : 1 ≤ n := hn; omega⟩
    have e : headOf (kw ['T', 'I', 'M', 'E', 'S', 'T', 'A', 'M', 'P']) = .timestamp := rfl
    show parseType (m + 1) (.word ['T', 'I', 'M', 'E', 'S', 'T', 'A', 'M', 'P'] :: r) = _
    rw [parseType]
    simp only [e, stop_optParen hr, stop_zone hr, unitOf]
    rfl
  | .timestampNtz, _, _, _, hs, n, r, hn, hr => by
    cases hs
    obtain ⟨m, rfl⟩ : ∃ m, n = m + 1 := ⟨n - 1, by have : 1 ≤ n := hn; omega⟩
    have e : headOf (kw ['T', 'I', 'M', 'E', 'S', 'T', 'A', 'M', 'P', '_', 'N', 'T', 'Z']) = .ntz := rfl
    show parseType (m + 1) (.word ['T', 'I', 'M', 'E', 'S', 'T', 'A', 'M', 'P', '_', 'N', 'T', 'Z'] :: r) = _
    rw [parseType]
    simp only [e, stop_optParen hr, unitOf]
    rfl
  | .calendar, _, _, _, hs, n, r, hn, hr => by
    cases hs
    obtain ⟨m, rfl⟩ : ∃ m, n = m + 1 := ⟨n - 1, by have : 1 ≤ n := hn; omega⟩
    have e : headOf (kw intervalWord) = .interval := rfl
    show parseType (m + 1) (.word intervalWord :: r) = _
    rw [parseType]
    simp only [e, intervalRest, (stop_fields hr).1, (stop_fields hr).2]
    rfl
  | .time none, _, _, _, hs, n, r, hn, hr => by
    obtain ⟨m, rfl⟩ : ∃ m, n = m + 1 := ⟨n - 1, by have : 1 ≤ n := hn; omega⟩
    have e : headOf (kw ['T', 'I', 'M', 'E']) = .time := rfl
    show parseType (m + 1) (.word ['T', 'I', 'M', 'E'] :: r) = _
    cases hs
    rw [parseType]
    simp only [e, stop_optParen hr, unitOf]
    rfl
  | .time (some p), _, _, _, hs, n, r, hn, hr => by
    obtain ⟨m, rfl⟩ : ∃ m, n = m + 1 :=
      ⟨n - 1, by simp only [out, cl_append, cl_word, cl_punct, cl_nil, List.length_append, List.length_cons] at hn; omega⟩
    have e : headOf (kw ['T', 'I', 'M', 'E']) = .time := rfl
    rw [toSpec] at hs
    split at hs
    · cases hs
    · rename_i u hu
      cases hs
      have hp : 0 ≤ p ∧ p < 10 := by
        simp only [Option.getD_some, unitOf] at hu
        repeat' split at hu
        all_goals first | omega | cases hu
      have hpar := num_paren (n := p) (r := r) (by omega) (by omega)
      have : cl (out (.time (some p))) ++ r = .word ['T', 'I', 'M', 'E'] :: .punct '(' :: (numToks p ++ .punct ')' :: r) := by
        simp [out, cl_append, cl_word, cl_punct, cl_nil, cl_num]
      rw [this, parseType]
      simp only [Option.getD_some] at hu
      simp only [e, optParen, hpar, hu]
      rfl
  | .char k, _, h, _, hs, n, r, hn, hr => by
    obtain ⟨m, rfl⟩ : ∃ m, n = m + 1 :=
      ⟨n - 1, by simp only [out, cl_append, cl_word, cl_punct, cl_nil, List.length_append, List.length_cons] at hn; omega⟩
    have e : headOf (kw ['C', 'H', 'A', 'R']) = .char := rfl
    have h : k < 2147483648 := h
    rw [toSpec] at hs
    split at hs
    · rename_i hk
      cases hs
      have hpar := num_paren (n := k) (r := r) (by omega) (by omega)
      have : cl (out (.char k)) ++ r = .word ['C', 'H', 'A', 'R'] :: .punct '(' :: (numToks k ++ .punct ')' :: r) := by
        simp [out, cl_append, cl_word, cl_punct, cl_nil, cl_num]
      have hlen : lengthOf k = some k := by rw [lengthOf, if_pos ⟨hk, by omega⟩]
      rw [this, parseType]
      simp only [e, optParen, hpar, hlen]
      rfl
    · cases hs
  | .varchar k, _, h, _, hs, n, r, hn, hr => by
    obtain ⟨m, rfl⟩ : ∃ m, n = m + 1 :=
      ⟨n - 1, by simp only [out, cl_append, cl_word, cl_punct, cl_nil, List.length_append, List.length_cons] at hn; omega⟩
    have e : headOf (kw ['V', 'A', 'R', 'C', 'H', 'A', 'R']) = .varchar := rfl
    have h : k < 2147483648 := h
    rw [toSpec] at hs
    split at hs
    · rename_i hk
      cases hs
      have hpar := num_paren (n := k) (r := r) (by omega) (by omega)
      have : cl (out (.varchar k)) ++ r = .word ['V', 'A', 'R', 'C', 'H', 'A', 'R'] :: .punct '(' :: (numToks k ++ .punct ')' :: r) := by
        simp [out, cl_append, cl_word, cl_punct, cl_nil, cl_num]
      have hlen : lengthOf k = some k := by rw [lengthOf, if_pos ⟨hk, by omega⟩]
      rw [this, parseType]
      simp only [e, hpar, hlen]
      rfl
    · cases hs
  | .decimal p s, _, h, t, hs, n, r, hn, hr => by
    obtain ⟨hp, hq⟩ := h
    obtain ⟨m, rfl⟩ : ∃ m, n = m + 1 :=
      ⟨n - 1, by simp only [out, cl_append, cl_word, cl_punct, cl_nil, List.length_append, List.length_cons] at hn; omega⟩
    have e : headOf (kw ['D', 'E', 'C', 'I', 'M', 'A', 'L']) = .decimal := rfl
    cases p with
    | none => exact absurd rfl hp
    | some p =>
      cases s with
      | none => exact absurd rfl hq
      | some s =>
        have hs : decimalType p s = some t := hs
        have hb : 0 ≤ p ∧ p < 256 ∧ -128 ≤ s ∧ s < 128 := by
          rw [decimalType] at hs
          split at hs
          · rename_i h; exact h
          · cases hs
        have this : cl (out (.decimal (some p) (some s))) ++ r = .word ['D', 'E', 'C', 'I', 'M', 'A', 'L'] :: .punct '(' ::
            (numToks p ++ .punct ',' :: (numToks s ++ .punct ')' :: r)) := by
          simp [out, cl_append, cl_word, cl_punct, cl_nil, cl_num]
        have e1 : ∀ ts, expectP '(' (.punct '(' :: ts) = some ts := fun _ => rfl
        have e2 : ∀ ts, expectP ')' (.punct ')' :: ts) = some ts := fun _ => rfl
        have e3 : ∀ ts, expectP ',' (.punct ',' :: ts) = some ts := fun _ => rfl
        have a1 := num_lit (n := p) (r := .punct ',' :: (numToks s ++ .punct ')' :: r)) (by omega) (by omega)
        have a2 := num_lit (n := s) (r := .punct ')' :: r) (by omega) (by omega)
        have a3 : optScale (.punct ',' :: (numToks s ++ .punct ')' :: r)) = (some s, .punct ')' :: r) := by
          rw [optScale, e3]
          simp only
          rw [a2]
        have a4 : decimalArgs (.punct '(' :: (numToks p ++ .punct ',' :: (numToks s ++ .punct ')' :: r))) = (some (p, some s), r) := by
          rw [decimalArgs, e1]
          simp only
          rw [a1]
          simp only
          rw [a3]
          simp only
          rw [e2]
        rw [this, parseType]
        simp only [e, a4, Option.getD_some, hs]
        rw [decimalType, if_pos hb] at hs
        cases hs
        rfl
  | .yearMonth a b, _, h, _, hs, n, r, hn, hr => by
    obtain ⟨a, b, rfl, rfl, hle⟩ := h
    have hl : 1 ≤ n := by
      refine Nat.le_trans ?_ hn
      simp only [out, intervalToks, cl_append, cl_word, cl_sp, List.length_append, List.length_cons]
      omega
    obtain ⟨m, rfl⟩ : ∃ m, n = m + 1 := ⟨n - 1, by omega⟩
    have e : headOf (kw intervalWord) = .interval := rfl
    rw [toSpec] at hs
    split at hs
    · cases hs
    · rename_i f hf
      split at hs
      · cases hs
      · rename_i g hg
        cases hs
        obtain ⟨if1, ig⟩ := yearMonth_index hf hg
        have hc := interval_cases (u := .yearMonth) (f := f) (g := g) (by omega)
        by_cases hab : a = b
        · subst hab
          have hfg : f = g := IField.index_inj (by omega)
          have : cl (out (.yearMonth (some a) (some a))) ++ r = .word intervalWord :: .word (yearMonthName a) :: r := by
            simp [out, intervalToks, cl_word, cl_sp, cl_nil]
          rw [this, parseType]
          simp only [e, intervalRest, yearMonth_read hf, stop_to hr]
          rw [if_pos hfg] at hc
          rw [hc]
          rfl
        · have hfg : f ≠ g := by rintro rfl; omega
          have : cl (out (.yearMonth (some a) (some b))) ++ r =
              .word intervalWord :: .word (yearMonthName a) :: .word ['T', 'O'] :: .word (yearMonthName b) :: r := by
            simp [out, intervalToks, cl_word, cl_sp, cl_nil, hab]
          rw [this, parseType]
          simp only [e, intervalRest, yearMonth_read hf, to_read (yearMonth_read hg r)]
          rw [if_neg hfg] at hc
          rw [hc]
          rfl
  | .dayTime a b, _, h, _, hs, n, r, hn, hr => by
    obtain ⟨a, b, rfl, rfl, hle⟩ := h
    have hl : 1 ≤ n := by
      refine Nat.le_trans ?_ hn
      simp only [out, intervalToks, cl_append, cl_word, cl_sp, List.length_append, List.length_cons]
      omega
    obtain ⟨m, rfl⟩ : ∃ m, n = m + 1 := ⟨n - 1, by omega⟩
    have e : headOf (kw intervalWord) = .interval := rfl
    rw [toSpec] at hs
    split at hs
    · cases hs
    · rename_i f hf
      split at hs
      · cases hs
      · rename_i g hg
        cases hs
        obtain ⟨if1, ig⟩ := dayTime_index hf hg
        have hc := interval_cases (u := .dayTime) (f := f) (g := g) (by omega)
        by_cases hab : a = b
        · subst hab
          have hfg : f = g := IField.index_inj (by omega)
          have : cl (out (.dayTime (some a) (some a))) ++ r = .word intervalWord :: .word (dayTimeName a) :: r := by
            simp [out, intervalToks, cl_word, cl_sp, cl_nil]
          rw [this, parseType]
          simp only [e, intervalRest, (dayTime_read hf _).1, (dayTime_read hf _).2, stop_to hr]
          rw [if_pos hfg] at hc
          rw [hc]
          rfl
        · have hfg : f ≠ g := by rintro rfl; omega
          have : cl (out (.dayTime (some a) (some b))) ++ r =
              .word intervalWord :: .word (dayTimeName a) :: .word ['T', 'O'] :: .word (dayTimeName b) :: r := by
            simp [out, intervalToks, cl_word, cl_sp, cl_nil, hab]
          rw [this, parseType]
          simp only [e, intervalRest, (dayTime_read hf _).1, (dayTime_read hf _).2, to_read (dayTime_read hg r).1]
          rw [if_neg hfg] at hc
          rw [hc]
          rfl
  | .udt _ _, _, h, _, _, _, _, _, _ => h.elim
  | .geometry _, _, h, _, _, _, _, _, _ => h.elim
  | .geography _, _, h, _, _, _, _, _, _ => h.elim
  | .unparsed _, _, h, _, _, _, _, _, _ => h.elim

/-- The claim for a type. -/
def Reads (uni : Char → Bool) (t : DT) : Prop := Plain t → ∀ {s : ST}, toSpec uni t = some s → ∀ {n : Nat} {r : List Tok},
    (cl (out t)).length ≤ n → Stop r → parseType n (cl (out t) ++ r) = some (asDdl s, r)

/-- The claim for fields. -/
def ReadsFields (uni : Char → Bool) (colon : Bool) (fs : Fields) : Prop :=
  ∀ (name : Text) (t : DT) (nullable : Bool) (metadata : Option Text) (rest : Fields),
    fs = .cons name t nullable metadata rest →
    Plains (.cons name t nullable metadata rest) → ∀ {s : SFields}, toSpecs uni (.cons name t nullable metadata rest) = some s →
    ∀ {n : Nat} {r : List Tok},
    (cl (outs (if colon then [.punct ':', sp] else [sp]) true (.cons name t nullable metadata rest))).length + 1 ≤ n →
    parseFields n (cl (outs (if colon then [.punct ':', sp] else [sp]) true (.cons name t nullable metadata rest)) ++ .punct '>' :: r) =
      some (asDdls s, .punct '>' :: r)

theorem parse_array {t : DT} {nullable : Bool} (ih : Reads uni t) : Reads uni (.array t nullable) := by
  intro h _ hs n r hn hr
  have e : headOf (kw ['A', 'R', 'R', 'A', 'Y']) = .array := rfl
  simp only [out, cl_append, cl_word, cl_punct, cl_nil, List.length_append, List.length_cons, List.length_nil] at hn
  obtain ⟨m, rfl⟩ : ∃ m, n = m + 1 := ⟨n - 1, by omega⟩
  rw [toSpec] at hs
  split at hs
  · cases hs
  · rename_i t' ht
    cases hs
    have hi := ih h ht (n := m) (r := .punct '>' :: r) (by omega) (.inr rfl)
    have : cl (out (.array t nullable)) ++ r = .word ['A', 'R', 'R', 'A', 'Y'] :: .punct '<' :: (cl (out t) ++ .punct '>' :: r) := by
      simp [out, cl_append, cl_word, cl_punct, cl_nil]
    have e1 : ∀ ts, expectP '<' (.punct '<' :: ts) = some ts := fun _ => rfl
    have e2 : ∀ ts, expectP '>' (.punct '>' :: ts) = some ts := fun _ => rfl
    rw [this, parseType]
    simp only [e, e1, hi, e2]
    rfl

theorem parse_struct {fs : Fields} (ih : ReadsFields uni true fs) : Reads uni (.struct fs) := by
  intro h _ hs n r hn hr
  have e : headOf (kw ['S', 'T', 'R', 'U', 'C', 'T']) = .struct := rfl
  simp only [out, cl_append, cl_word, cl_punct, cl_nil, List.length_append, List.length_cons, List.length_nil] at hn
  obtain ⟨m, rfl⟩ : ∃ m, n = m + 1 := ⟨n - 1, by omega⟩
  rw [toSpec] at hs
  split at hs
  · cases hs
  · rename_i fs' hfs
    cases hs
    have : cl (out (.struct fs)) ++ r = .word ['S', 'T', 'R', 'U', 'C', 'T'] :: .punct '<' ::
        (cl (outs [.punct ':', sp] true fs) ++ .punct '>' :: r) := by
      simp [out, cl_append, cl_word, cl_punct, cl_nil]
    have e1 : ∀ ts, expectP '<' (.punct '<' :: ts) = some ts := fun _ => rfl
    have e2 : ∀ ts, expectP '>' (.punct '>' :: ts) = some ts := fun _ => rfl
    rw [this, parseType]
    cases fs with
    | nil =>
      have e3 : parseFields m (cl (outs [.punct ':', sp] true .nil) ++ .punct '>' :: r) = none := by
        cases m <;> simp [outs, cl, parseFields, ident]
      cases hfs
      simp only [e, e1, e3]
      have e4 : ∀ ts, cl (outs [.punct ':', sp] true .nil) ++ .punct '>' :: ts = .punct '>' :: ts := by
        intro ts; simp [outs, cl]
      simp only [e4, e2]
      rfl
    | cons name t nullable metadata rest =>
      have hi := ih name t nullable metadata rest rfl h hfs (n := m) (r := r)
        (by simp only [if_true]; omega)
      simp only [if_true] at hi
      simp only [e, e1, hi, e2]
      rfl

theorem parse_map {k v : DT} {nullable : Bool} (ihk : Reads uni k) (ihv : Reads uni v) : Reads uni (.map k v nullable) := by
  intro h _ hs n r hn hr
  have e : headOf (kw ['M', 'A', 'P']) = .map := rfl
  simp only [out, cl_append, cl_word, cl_punct, cl_sp, cl_nil, List.length_append, List.length_cons, List.length_nil] at hn
  obtain ⟨m, rfl⟩ : ∃ m, n = m + 1 := ⟨n - 1, by omega⟩
  rw [toSpec] at hs
  split at hs
  · cases hs
  · rename_i k' hk
    split at hs
    · cases hs
    · rename_i v' hv
      cases hs
      have hi2 := ihv h.2 hv (n := m) (r := .punct '>' :: r) (by omega) (.inr rfl)
      have hi := ihk h.1 hk (n := m) (r := .punct ',' :: (cl (out v) ++ .punct '>' :: r)) (by omega) (.inl rfl)
      have : cl (out (.map k v nullable)) ++ r = .word ['M', 'A', 'P'] :: .punct '<' ::
          (cl (out k) ++ .punct ',' :: (cl (out v) ++ .punct '>' :: r)) := by
        simp [out, cl_append, cl_word, cl_punct, cl_sp, cl_nil]
      have e1 : ∀ ts, expectP '<' (.punct '<' :: ts) = some ts := fun _ => rfl
      have e2 : ∀ ts, expectP '>' (.punct '>' :: ts) = some ts := fun _ => rfl
      have e3 : ∀ ts, expectP ',' (.punct ',' :: ts) = some ts := fun _ => rfl
      rw [this, parseType]
      simp only [e, e1, hi, e3, hi2, e2]
      rfl

theorem parse_cons {colon : Bool} {name : Text} {t : DT} {nullable : Bool} {metadata : Option Text} {rest : Fields}
    (iht : Reads uni t) (ihr : ReadsFields uni colon rest) : ReadsFields uni colon (.cons name t nullable metadata rest) := by
  intro _ _ _ _ _ he h s hs n r hn
  cases he
  rw [toSpecs] at hs
  split at hs
  · cases hs
  · rename_i t' ht
    split at hs
    · cases hs
    · rename_i rest' hr
      cases hs
      have e : ∀ tl, cl (outs (if colon then [.punct ':', sp] else [sp]) true (.cons name t nullable metadata rest)) ++ tl =
          nameTok name :: ((if colon then [.punct ':'] else []) ++ (cl (out t) ++ (cl (nnToks nullable) ++
            (cl (outs (if colon then [.punct ':', sp] else [sp]) false rest) ++ tl)))) := by
        intro tl
        rw [outs]
        cases colon <;> simp [cl_append, cl_name, cl_punct, cl_sp]
      have hlen := congrArg List.length (e [])
      simp only [List.append_nil, List.length_cons, List.length_append] at hlen
      obtain ⟨m, rfl⟩ : ∃ m, n = m + 1 := ⟨n - 1, by omega⟩
      rw [e, parseFields]
      have hid : ∀ ts, ident (nameTok name :: ts) = some (name, ts) := by
        intro ts
        rw [nameTok]
        split
        · simp only [ident, tick_value]
        · rfl
      have hcol : ∀ ts, optColon ((if colon then [.punct ':'] else []) ++ (cl (out t) ++ ts)) = cl (out t) ++ ts := by
        intro ts
        cases colon
        · obtain ⟨k, r, ek, _⟩ := out_head t h.1
          rw [ek, cl_word]
          rfl
        · rfl
      -- What follows the type.
      have hrest : ∀ b, ∃ tl, cl (outs (if colon then [.punct ':', sp] else [sp]) false rest) ++ .punct '>' :: r = tl ∧
          (∃ c, tl.head? = some (.punct c) ∧ (c = ',' ∨ c = '>')) ∧
          (match expectP ',' tl with
            | none => some (SFields.cons name (asDdl t') b none .nil, tl)
            | some r2 =>
              match parseFields m r2 with
              | none => some (SFields.cons name (asDdl t') b none .nil, tl)
              | some (fs, r3) => some (SFields.cons name (asDdl t') b none fs, r3)) =
            some (SFields.cons name (asDdl t') b none (asDdls rest'), .punct '>' :: r) := by
        intro b
        cases rest with
        | nil =>
          cases hr
          refine ⟨.punct '>' :: r, rfl, ⟨_, rfl, .inr rfl⟩, rfl⟩
        | cons n2 t2 b2 m2 r2 =>
          have eo : cl (outs (if colon then [.punct ':', sp] else [sp]) false (.cons n2 t2 b2 m2 r2)) =
              .punct ',' :: cl (outs (if colon then [.punct ':', sp] else [sp]) true (.cons n2 t2 b2 m2 r2)) := by
            rw [outs, outs]
            simp [cl_append, cl_name, cl_punct, cl_sp]
          refine ⟨.punct ',' :: (cl (outs (if colon then [.punct ':', sp] else [sp]) true (.cons n2 t2 b2 m2 r2)) ++ .punct '>' :: r),
            by rw [eo]; rfl, ⟨_, rfl, .inl rfl⟩, ?_⟩
          have hl2 := congrArg List.length eo
          simp only [List.length_cons] at hl2
          have hi := ihr n2 t2 b2 m2 r2 rfl h.2 hr (n := m) (r := r) (by omega)
          have e3 : ∀ ts, expectP ',' (.punct ',' :: ts) = some ts := fun _ => rfl
          rw [e3]
          simp only
          rw [hi]
      obtain ⟨tl, etl, ⟨c, hc, hc2⟩, hfin⟩ := hrest nullable
      rw [etl, hid]
      simp only
      rw [hcol]
      have hstop : Stop (cl (nnToks nullable) ++ tl) := by
        cases nullable
        · rfl
        · cases tl with
          | nil => cases hc
          | cons x tl =>
            cases hc
            exact hc2
      have hlt : (cl (out t)).length ≤ m := by omega
      rw [iht h.1 ht hlt hstop]
      simp only
      have hnn : notNull (cl (nnToks nullable) ++ tl) = (!nullable, tl) := by
        cases nullable
        · rfl
        · have h1 : expectK ['N', 'O', 'T'] tl = none := by
            cases tl with
            | nil => rfl
            | cons x tl => cases hc; rfl
          show notNull tl = _
          rw [notNull, h1]
          rfl
      rw [hnn]
      simp only [Bool.not_not]
      exact hfin

theorem reads_leaf {t : DT} (h : leaf t = true) : Reads uni t := fun hp _ hs _ _ hn hr => parse_leaf t h hp hs hn hr

mutual
theorem parse_out : ∀ (t : DT), Reads uni t
  | .missing => reads_leaf rfl
  | .null => reads_leaf rfl
  | .binary => reads_leaf rfl
  | .boolean => reads_leaf rfl
  | .byte => reads_leaf rfl
  | .short => reads_leaf rfl
  | .integer => reads_leaf rfl
  | .long => reads_leaf rfl
  | .float => reads_leaf rfl
  | .double => reads_leaf rfl
  | .string => reads_leaf rfl
  | .date => reads_leaf rfl
  | .variant => reads_leaf rfl
  | .timestamp => reads_leaf rfl
  | .timestampNtz => reads_leaf rfl
  | .calendar => reads_leaf rfl
  | .time _ => reads_leaf rfl
  | .char _ => reads_leaf rfl
  | .varchar _ => reads_leaf rfl
  | .decimal _ _ => reads_leaf rfl
  | .yearMonth _ _ => reads_leaf rfl
  | .dayTime _ _ => reads_leaf rfl
  | .udt _ _ => reads_leaf rfl
  | .geometry _ => reads_leaf rfl
  | .geography _ => reads_leaf rfl
  | .unparsed _ => reads_leaf rfl
  | .array t _ => parse_array (parse_out t)
  | .struct fs => parse_struct (parse_outs true fs)
  | .map k v _ => parse_map (parse_out k) (parse_out v)

theorem parse_outs (colon : Bool) : ∀ (fs : Fields), ReadsFields uni colon fs
  | .nil => fun _ _ _ _ _ h => by cases h
  | .cons _ t _ _ rest => parse_cons (parse_out t) (parse_outs colon rest)
end

/-! ## Whole texts -/

theorem parse_whole {ts : List Tok} {t : ST} (hl : L uni ts) (h : parseType (cl ts).length (cl ts) = some (t, [])) :
    parseDataType uni (raws ts) = some t := by
  rw [parseDataType, lex_iff.mpr hl]
  show (match parseType (cl ts).length (cl ts) with | some (t, []) => some t | _ => none) = _
  rw [h]

theorem parse_fails {ts : List Tok} (hl : L uni ts) (h : ∀ n t, parseType n (cl ts) ≠ some (t, [])) :
    parseDataType uni (raws ts) = none := by
  rw [parseDataType, lex_iff.mpr hl]
  show (match parseType (cl ts).length (cl ts) with | some (t, []) => some t | _ => none) = _
  split
  · rename_i t he
    exact absurd he (h _ t)
  · rfl

/-- Words that begin a type but continue none. -/
def headB (k : Text) : Bool :=
  !(kw k == ['W', 'I', 'T', 'H'] || kw k == ['W', 'I', 'T', 'H', 'O', 'U', 'T'] || kw k == ['Y', 'E', 'A', 'R'] ||
    kw k == ['M', 'O', 'N', 'T', 'H'] || kw k == ['D', 'A', 'Y'] || kw k == ['H', 'O', 'U', 'R'] ||
    kw k == ['M', 'I', 'N', 'U', 'T', 'E'] || kw k == ['S', 'E', 'C', 'O', 'N', 'D'])

/-- The integer types. -/
def isInt : DT → Bool
  | .byte => true
  | .short => true
  | .integer => true
  | .long => true
  | _ => false

theorem cl_head {t : DT} {k : Text} {r : List Tok} (h : out t = .word k :: r) (h1 : headB k = true)
    (h2 : intWord (kw k) = none ∨ (r = [] ∧ isInt t = true)) :
    ∃ k r, cl (out t) = .word k :: r ∧ headB k = true ∧ (intWord (kw k) = none ∨ (r = [] ∧ isInt t = true)) := by
  refine ⟨k, cl r, by rw [h]; rfl, h1, ?_⟩
  rcases h2 with h2 | ⟨rfl, h2⟩
  · exact .inl h2
  · exact .inr ⟨rfl, h2⟩

theorem out_head2 : ∀ (t : DT), Plain t →
    ∃ k r, cl (out t) = .word k :: r ∧ headB k = true ∧ (intWord (kw k) = none ∨ (r = [] ∧ isInt t = true))
  | .missing, h => h.elim
  | .null, _ | .binary, _ | .boolean, _ | .float, _ | .double, _
  | .string, _ | .date, _ | .timestamp, _ | .timestampNtz, _ | .calendar, _ | .variant, _ | .time none, _ =>
    cl_head rfl (by decide) (.inl (by decide))
  | .byte, _ => cl_head rfl (by decide) (.inr ⟨rfl, rfl⟩)
  | .short, _ => cl_head rfl (by decide) (.inr ⟨rfl, rfl⟩)
  | .integer, _ => cl_head rfl (by decide) (.inr ⟨rfl, rfl⟩)
  | .long, _ => cl_head rfl (by decide) (.inr ⟨rfl, rfl⟩)
  | .decimal p s, _ => cl_head rfl (by decide) (.inl (by decide))
  | .char n, _ => cl_head rfl (by decide) (.inl (by decide))
  | .varchar n, _ => cl_head rfl (by decide) (.inl (by decide))
  | .time (some n), _ => cl_head rfl (by decide) (.inl (by decide))
  | .yearMonth s e, _ => cl_head rfl (by decide) (.inl (by decide))
  | .dayTime s e, _ => cl_head rfl (by decide) (.inl (by decide))
  | .array t _, _ => cl_head rfl (by decide) (.inl (by decide))
  | .struct fs, _ => cl_head rfl (by decide) (.inl (by decide))
  | .map k v _, _ => cl_head rfl (by decide) (.inl (by decide))
  | .udt _ _, h => h.elim
  | .geometry _, h => h.elim
  | .geography _, h => h.elim
  | .unparsed _, h => h.elim

theorem ite_ne {c : Prop} [Decidable c] {a b x : Head} (ha : c → a ≠ x) (hb : b ≠ x) : (if c then a else b) ≠ x := by
  by_cases h : c
  · rw [if_pos h]; exact ha h
  · rw [if_neg h]; exact hb

theorem head_unsigned {k : Text} (h : headOf k = .unsigned) : k = ['U', 'N', 'S', 'I', 'G', 'N', 'E', 'D'] := by
  refine Decidable.byContradiction fun hne => ?_
  revert h
  show headOf k ≠ .unsigned
  unfold headOf
  cases intWord k with
  | some n => simp
  | none =>
    simp only
    repeat (refine ite_ne ?_ ?_; · first | exact fun hc => absurd hc hne | exact fun _ => by simp)
    simp

namespace Spec

/-- The schemas whose text reads as a type: one column that can be NULL, called `unsigned` in any case, of an
integer type. -/
def ReadsAsType : Fields → Prop
  | .cons name t true _ .nil => name.map Char.toUpper = ['U', 'N', 'S', 'I', 'G', 'N', 'E', 'D'] ∧
      (t = .byte ∨ t = .short ∨ t = .integer ∨ t = .long)
  | _ => False

end Spec

theorem isInt_cases {t : DT} (h : isInt t = true) : t = .byte ∨ t = .short ∨ t = .integer ∨ t = .long := by
  cases t <;> simp_all [isInt]

theorem first_fails {name : Text} {t : DT} {nullable : Bool} {m : Option Text} {rest : Fields}
    (hp : Plain t) (hx : ¬ ReadsAsType (.cons name t nullable m rest)) (n : Nat) (x : ST) :
    parseType n (cl (outs [sp] true (.cons name t nullable m rest))) ≠ some (x, []) := by
  obtain ⟨k, r, ek, hk, hi⟩ := out_head2 t hp
  have e : cl (outs [sp] true (.cons name t nullable m rest)) =
      nameTok name :: .word k :: (r ++ (cl (nnToks nullable) ++ cl (outs [sp] false rest))) := by
    rw [outs]
    simp [cl_append, cl_name, cl_sp, ek]
  rw [e]
  intro h
  cases n with
  | zero => cases h
  | succ n =>
    rw [nameTok] at h
    split at h
    · cases h
    · rw [parseType] at h
      simp only [headB, Bool.not_eq_true', Bool.or_eq_false_iff, beq_eq_false_iff_ne] at hk
      obtain ⟨⟨⟨⟨⟨⟨⟨k1, k2⟩, k3⟩, k4⟩, k5⟩, k6⟩, k7⟩, k8⟩ := hk
      have eP : ∀ c tl, expectP c (.word k :: tl) = none := fun _ _ => rfl
      have ep : ∀ tl, optParen (.word k :: tl) = (none, .word k :: tl) := fun _ => rfl
      have ed : ∀ tl, decimalArgs (.word k :: tl) = (none, .word k :: tl) := fun _ => rfl
      have ez : ∀ tl, zoneOf (.word k :: tl) = (.configured, .word k :: tl) := by
        intro tl
        simp only [zoneOf, expectK, if_neg k1, if_neg k2]
      have ey : ∀ tl, intervalRest (.word k :: tl) = some (.interval .monthDayNano none none, .word k :: tl) := by
        intro tl
        simp only [intervalRest, yearMonthField, dayTimeField, if_neg k3, if_neg k4, if_neg k5, if_neg k6, if_neg k7, if_neg k8]
      split at h
      · cases h
      · rename_i hu
        rw [unsignedRest] at h
        split at h
        · cases h
        · rename_i b hb
          rcases hi with hi | ⟨rfl, hi⟩
          · rw [hb] at hi; cases hi
          · simp only [List.nil_append, Option.some.injEq, Prod.mk.injEq, List.append_eq_nil_iff] at h
            obtain ⟨_, h1, h2⟩ := h
            cases nullable with
            | false => cases h1
            | true =>
              cases rest with
              | nil => exact hx ⟨head_unsigned hu, isInt_cases hi⟩
              | cons n2 t2 b2 m2 r2 =>
                rw [outs] at h2
                cases h2
      · simp only [ed] at h; cases h
      · simp only [ep] at h; cases h
      · simp only [paren, eP] at h; cases h
      · simp only [ep, ez, unitOf] at h; cases h
      · simp only [ep, unitOf] at h; cases h
      · simp only [ep, unitOf] at h; cases h
      · simp only [ep, unitOf] at h; cases h
      · simp only [ey] at h; cases h
      · simp only [eP] at h; cases h
      · simp only [eP] at h; cases h
      · simp only [eP] at h; cases h
      · simp only [sridArg, eP] at h; cases h
      · simp only [sridArg, eP] at h; cases h
      · cases h

/-- The text of a type that is not a structure reads as the type. -/
theorem C95_type {t : DT} {s : ST} (hp : Plain t) (hn : ∀ fs, t ≠ .struct fs) (hs : toSpec uni t = some s) :
    ∃ x, ddlText t = some x ∧ parseSparkDataType uni x = some (asDdl s) := by
  have e : ddlText t = typeText t := by
    cases t with
    | missing => exact hp.elim
    | struct fs => exact absurd rfl (hn fs)
    | _ => rfl
  refine ⟨raws (out t), by rw [e, type_raws t hp], ?_⟩
  have hl := L_out t hp hs (ts := []) trivial L_nil
  rw [List.append_nil] at hl
  have h := parse_out t hp hs (n := (cl (out t)).length) (r := []) (Nat.le_refl _) trivial
  rw [List.append_nil] at h
  rw [parseSparkDataType, parse_whole hl h]

/-- The text of a schema reads as the schema: the same names, types and nullability at every depth. -/
theorem C95_schema {fs : Fields} {s : SFields} (hp : Plains fs) (hne : fs ≠ .nil) (hx : ¬ ReadsAsType fs)
    (hs : toSpecs uni fs = some s) :
    ∃ x, ddlText (.struct fs) = some x ∧ parseSparkDataType uni x = some (.struct (asDdls s)) := by
  have e : raws [sp] = [' '] := rfl
  refine ⟨raws (outs [sp] true fs), ?_, ?_⟩
  · rw [ddlText, ← e, fields_raws [sp] true fs hp]
  · have hl := (L_outs false true fs hp hs (ts := []) trivial L_nil).1
    simp only [List.append_nil] at hl
    have hl : L uni (outs [sp] true fs) := hl
    have hl2 := (L_outs false true fs hp hs (ts := [.punct '>']) (fol_punct (by decide)) (L_punct (by decide) L_nil)).1
    have hl2 : L uni (outs [sp] true fs ++ [.punct '>']) := hl2
    cases fs with
    | nil => exact absurd rfl hne
    | cons name t nullable m rest =>
      rw [parseSparkDataType, parse_fails hl (first_fails hp.1 hx)]
      have hl3 : L uni (.word ['s', 't', 'r', 'u', 'c', 't'] :: .punct '<' ::
          (outs [sp] true (.cons name t nullable m rest) ++ [.punct '>'])) :=
        L_kw (by decide) (fol_punct (by decide)) (L_punct (by decide) hl2)
      have et : ['s', 't', 'r', 'u', 'c', 't', '<'] ++ raws (outs [sp] true (.cons name t nullable m rest)) ++ ['>'] =
          raws (.word ['s', 't', 'r', 'u', 'c', 't'] :: .punct '<' ::
            (outs [sp] true (.cons name t nullable m rest) ++ [.punct '>'])) := by
        simp [raws, Tok.raw]
      have hh : headOf (kw ['s', 't', 'r', 'u', 'c', 't']) = .struct := rfl
      have ec : cl (.word ['s', 't', 'r', 'u', 'c', 't'] :: .punct '<' ::
            (outs [sp] true (.cons name t nullable m rest) ++ [.punct '>'])) =
          .word ['s', 't', 'r', 'u', 'c', 't'] :: .punct '<' :: (cl (outs [sp] true (.cons name t nullable m rest)) ++ [.punct '>']) := by
        simp [cl_word, cl_punct, cl_append, cl_nil]
      have hf := parse_outs false _ name t nullable m rest rfl hp hs
        (n := (cl (outs [sp] true (.cons name t nullable m rest))).length + 2) (r := [])
        (by show (cl (outs [sp] true (.cons name t nullable m rest))).length + 1 ≤ _; omega)
      have hf : parseFields ((cl (outs [sp] true (.cons name t nullable m rest))).length + 2)
          (cl (outs [sp] true (.cons name t nullable m rest)) ++ [.punct '>']) = some (asDdls s, [.punct '>']) := hf
      have hparse : parseDataType uni (['s', 't', 'r', 'u', 'c', 't', '<'] ++
          raws (outs [sp] true (.cons name t nullable m rest)) ++ ['>']) = some (.struct (asDdls s)) := by
        rw [et]
        refine parse_whole hl3 ?_
        rw [ec]
        have elen : (Tok.word ['s', 't', 'r', 'u', 'c', 't'] :: Tok.punct '<' ::
            (cl (outs [sp] true (.cons name t nullable m rest)) ++ [.punct '>'])).length =
            (cl (outs [sp] true (.cons name t nullable m rest))).length + 2 + 1 := by simp
        have e1 : ∀ ts, expectP '<' (.punct '<' :: ts) = some ts := fun _ => rfl
        have e2 : ∀ ts, expectP '>' (.punct '>' :: ts) = some ts := fun _ => rfl
        rw [elen, parseType]
        simp only [hh, e1, hf, e2]
      rw [hparse]
      rw [toSpecs] at hs
      split at hs
      · cases hs
      · split at hs
        · cases hs
        · cases hs
          rfl

/-- Schemas with the same text are the same, up to what a text cannot express. -/
theorem C95_injective {fs gs : Fields} {s s' : SFields} (hf : Plains fs) (hg : Plains gs) (nf : fs ≠ .nil) (ng : gs ≠ .nil)
    (xf : ¬ ReadsAsType fs) (xg : ¬ ReadsAsType gs) (hs : toSpecs (fun _ => false) fs = some s)
    (hs' : toSpecs (fun _ => false) gs = some s') (h : ddlText (.struct fs) = ddlText (.struct gs)) : asDdls s = asDdls s' := by
  obtain ⟨x, h1, h2⟩ := C95_schema hf nf xf hs
  obtain ⟨y, h3, h4⟩ := C95_schema hg ng xg hs'
  rw [h1, h3] at h
  cases h
  rw [h2, Option.some.injEq, ST.struct.injEq] at h4
  exact h4

/-- The exception: a column called `unsigned` of an integer type is read as a type without columns. -/
theorem C95_unsigned (m : Option Text) {t : DT} {bits : Nat}
    (h : (t, bits) ∈ [(DT.byte, 8), (.short, 16), (.integer, 32), (.long, 64)]) :
    ∃ x, ddlText (.struct (.cons ['u', 'n', 's', 'i', 'g', 'n', 'e', 'd'] t true m .nil)) = some x ∧
      parseSparkDataType uni x = some (.int false bits) := by
  simp only [List.mem_cons, Prod.mk.injEq, List.not_mem_nil, or_false] at h
  rcases h with ⟨rfl, rfl⟩ | ⟨rfl, rfl⟩ | ⟨rfl, rfl⟩ | ⟨rfl, rfl⟩ <;> exact ⟨_, rfl, rfl⟩

/-- The schema without columns has an empty text, which is refused. -/
theorem C95_empty : ddlText (.struct .nil) = some [] ∧ parseSparkDataType uni [] = none := ⟨rfl, rfl⟩

/-- A decimal without parameters is decimal(10,0), and its text is refused. -/
theorem C95_decimal_default : toSpec uni (.decimal none none) = some (.decimal false 10 0) ∧
    ∃ x, ddlText (.decimal none none) = some x ∧ parseSparkDataType uni x = none := ⟨rfl, _, rfl, rfl⟩

/-- An interval of which only the first field is given lasts to the smallest field, but its text is an interval
of one field; without both fields its text is an interval of the other kind. -/
theorem C95_interval_default :
    toSpec uni (.yearMonth (some 0) none) = some (.interval .yearMonth (some .year) (some .month)) ∧
    (∃ x, ddlText (.yearMonth (some 0) none) = some x ∧
      parseSparkDataType uni x = some (.interval .yearMonth (some .year) none)) ∧
    toSpec uni (.yearMonth none none) = some (.interval .yearMonth (some .year) (some .month)) ∧
    (∃ x, ddlText (.yearMonth none none) = some x ∧
      parseSparkDataType uni x = some (.interval .monthDayNano none none)) :=
  ⟨rfl, ⟨_, rfl, rfl⟩, rfl, ⟨_, rfl, rfl⟩⟩

/-- Geometries are printed without the number that the parser requires. -/
theorem C95_geometry_refused (srid : Int) : toSpec uni (.geometry srid) = some (.geometry srid) ∧
    ∃ x, ddlText (.geometry srid) = some x ∧ parseSparkDataType uni x = none := ⟨rfl, _, rfl, rfl⟩

/-- `` a`b ARRAY<MAP<STRING, DECIMAL(10,-2)>> NOT NULL, c STRUCT<x: INTERVAL DAY TO SECOND, y: CHAR(3) NOT NULL>`` with
the first name in backticks. -/
example : ∃ x, ddlText (.struct (.cons ['a', '`', 'b'] (.array (.map .string (.decimal (some 10) (some (-2))) false) false) false none
      (.cons ['c'] (.struct (.cons ['x'] (.dayTime (some 0) (some 3)) true none (.cons ['y'] (.char 3) false none .nil))) true
        (some ['{', '}']) .nil))) = some x ∧
    parseSparkDataType (fun _ => false) x = some (.struct
      (.cons ['a', '`', 'b'] (.list (.map .string (.decimal false 10 (-2)) true) true) false none
        (.cons ['c'] (.struct (.cons ['x'] (.interval .dayTime (some .day) (some .second)) true none
          (.cons ['y'] (.char 3) false none .nil))) true none .nil))) := by
  refine C95_schema (s := .cons ['a', '`', 'b'] (.list (.map .string (.decimal false 10 (-2)) false) false) false none
    (.cons ['c'] (.struct (.cons ['x'] (.interval .dayTime (some .day) (some .second)) true none
      (.cons ['y'] (.char 3) false none .nil))) true (some ['{', '}']) .nil)) ?_ ?_ ?_ rfl
  · simp [Plains, Plain]
  · simp
  · simp [ReadsAsType]

/-- `TIMESTAMP` is the configured timestamp; the elements of the array can be NULL afterwards. -/
example : ∃ x, ddlText (.array .timestamp false) = some x ∧
    parseSparkDataType (fun _ => false) x = some (.list (.timestamp .micro .configured) true) :=
  C95_type (uni := fun _ => false) (t := .array .timestamp false) trivial (by simp) rfl

end Verif.Sql.Ddl
