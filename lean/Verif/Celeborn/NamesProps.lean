import Verif.Celeborn.Names
import Verif.Sql.DisplayProps

/-!
# The texts of Celeborn

**C109.** The texts by which workers, files and settings are named name one thing.
-/

namespace Verif.Celeborn.Names

open Verif.Sql (intText parseDigits parseInt toDigits_digits toDigits_val parseDigits_eq digit_ne)

theorem digits_ne (n : Nat) : Nat.toDigits 10 n ≠ [] := by
  intro h
  have := Nat.length_toDigits_pos (b := 10) (n := n)
  rw [h] at this
  exact absurd this (by decide)

theorem colon_free (n : Nat) : ∀ c ∈ Nat.toDigits 10 n, (decide (c ≠ ':')) = true := fun c h => by
  simpa using digit_ne (toDigits_digits n c h) (d := ':') (by decide)

theorem rnext_append {a b : Text} (hb : ∀ c ∈ b, (decide (c ≠ ':')) = true) :
    rnext (some (a ++ ':' :: b)) = some (b, some a) := by
  have hr : (a ++ ':' :: b).reverse = b.reverse ++ ':' :: a.reverse := by simp
  have hb' : ∀ c ∈ b.reverse, (decide (c ≠ ':')) = true := fun c h => hb c (List.mem_reverse.1 h)
  have t : (b.reverse ++ ':' :: a.reverse).takeWhile (fun c => decide (c ≠ ':')) = b.reverse := by
    rw [List.takeWhile_append_of_pos hb']
    simp
  have d : (b.reverse ++ ':' :: a.reverse).dropWhile (fun c => decide (c ≠ ':')) = ':' :: a.reverse := by
    rw [List.dropWhile_append_of_pos hb']
    simp
  simp only [rnext, hr, t, d, List.reverse_reverse]

theorem parsePort_digits {n : Nat} (h : n < 2 ^ 16) : parsePort (Nat.toDigits 10 n) = some n := by
  have hd := toDigits_digits n
  have hn := digits_ne n
  have hp := parseDigits_eq hd hn
  rw [toDigits_val] at hp
  generalize Nat.toDigits 10 n = s at hd hn hp
  cases s with
  | nil => exact absurd rfl hn
  | cons c r =>
    have : c ≠ '+' := digit_ne (hd c (by simp)) (by decide)
    simp only [parsePort, this, if_false, hp, h, if_true]

theorem port_digits {n : Nat} (h : n < 2 ^ 16) (a : Text) :
    port (some (a ++ ':' :: Nat.toDigits 10 n)) = some (n, some a) := by
  simp only [port, rnext_append (colon_free n), parsePort_digits h, Option.map_some]

/-- C109: the text of a worker is read back, also when the host has colons. -/
theorem C109_worker (w : Identity) (hh : w.host ≠ []) (h1 : w.rpc < 2 ^ 16) (h2 : w.push < 2 ^ 16)
    (h3 : w.fetch < 2 ^ 16) (h4 : w.replicate < 2 ^ 16) : Identity.parse w.show = some w := by
  have e : w.show = (((w.host ++ ':' :: Nat.toDigits 10 w.rpc) ++ ':' :: Nat.toDigits 10 w.push) ++
      ':' :: Nat.toDigits 10 w.fetch) ++ ':' :: Nat.toDigits 10 w.replicate := by
    simp [Identity.show]
  simp only [Identity.parse, e, port_digits h1, port_digits h2, port_digits h3, port_digits h4, hh, if_false]

example : Identity.parse "fe80::1:12000:12001:12002:12003".toList =
    some ⟨"fe80::1".toList, 12000, 12001, 12002, 12003⟩ :=
  C109_worker ⟨"fe80::1".toList, 12000, 12001, 12002, 12003⟩ (by decide) (by decide) (by decide) (by decide) (by decide)

theorem parsePort_lt {s : Text} {n : Nat} (h : parsePort s = some n) : n < 2 ^ 16 := by
  simp only [parsePort] at h
  split at h
  · cases h
  · split at h
    · cases h; assumption
    · cases h

theorem port_lt {left left' : Option Text} {n : Nat} (h : port left = some (n, left')) : n < 2 ^ 16 := by
  simp only [port] at h
  split at h
  · cases h
  · rename_i t l _
    cases hp : parsePort t with
    | none => rw [hp] at h; cases h
    | some m =>
      rw [hp] at h
      cases h
      exact parsePort_lt hp

/-- C109: what is read as a worker has a host and ports, so its own text is read as the same
worker. -/
theorem C109_worker_read (s : Text) (w : Identity) (h : Identity.parse s = some w) :
    w.host ≠ [] ∧ Identity.parse w.show = some w := by
  simp only [Identity.parse] at h
  split at h
  · cases h
  rename_i h4
  split at h
  · cases h
  rename_i h3
  split at h
  · cases h
  rename_i h2
  split at h
  · cases h
  rename_i h1
  split at h
  · cases h
  split at h
  · cases h
  rename_i hh
  cases h
  exact ⟨hh, C109_worker _ hh (port_lt h1) (port_lt h2) (port_lt h3) (port_lt h4)⟩

/-- A port too many is part of the host; a port that is missing or too large is refused. -/
example : Identity.parse "w:1:2:3:4:5".toList = some ⟨"w:1".toList, 2, 3, 4, 5⟩ ∧
    Identity.parse "w:1:2:3".toList = none ∧ Identity.parse ":1:2:3:4".toList = none ∧
    Identity.parse "w:1:2:3:65536".toList = none := by
  decide +kernel

theorem parseInt_text {l : Int} (h : -128 ≤ l ∧ l < 128) : parseInt 8 (intText l) = some l := by
  have hd := toDigits_digits l.natAbs
  have hn := digits_ne l.natAbs
  have hp := parseDigits_eq hd hn
  rw [toDigits_val] at hp
  simp only [intText]
  by_cases hl : l < 0
  · rw [if_pos hl]
    simp only [parseInt, beq_self_eq_true, if_true, hp, Option.map_some]
    rw [if_pos (by omega)]
    congr 1
    omega
  · rw [if_neg hl]
    rw [Verif.Sql.parseInt_digits hd hn, toDigits_val, if_pos (by omega)]
    congr 1
    omega

theorem codec_zstd {l : Int} (h : -128 ≤ l ∧ l < 128) :
    Compression.parse (Compression.show (.zstd l)) = if -5 ≤ l ∧ l ≤ 22 then some (.zstd l) else Option.none := by
  have e : Compression.show (.zstd l) = 'z' :: 's' :: 't' :: 'd' :: '(' :: (intText l ++ [')']) := rfl
  have n1 : ¬ 'z' :: 's' :: 't' :: 'd' :: '(' :: (intText l ++ [')']) = "none".toList := by
    intro h
    have : "none".toList = ['n', 'o', 'n', 'e'] := by decide
    rw [this] at h
    injection h with h _
    exact absurd h (by decide)
  have n2 : ¬ 'z' :: 's' :: 't' :: 'd' :: '(' :: (intText l ++ [')']) = "lz4".toList := by
    intro h
    have : "lz4".toList = ['l', 'z', '4'] := by decide
    rw [this] at h
    injection h with h _
    exact absurd h (by decide)
  rw [e]
  simp only [Compression.parse, n1, n2, if_false, List.getLast?_append, List.getLast?_singleton,
    Option.some_or, List.dropLast_concat, parseInt_text h, if_true]

/-- C109: the text of a codec is read back, and a level that Zstandard does not have is
refused. -/
theorem C109_codec (c : Compression) :
    ((∀ l, c = .zstd l → -5 ≤ l ∧ l ≤ 22) → Compression.parse c.show = some c) ∧
      ∀ l, c = .zstd l → -128 ≤ l ∧ l < 128 → ¬ (-5 ≤ l ∧ l ≤ 22) → Compression.parse c.show = Option.none := by
  constructor
  · intro h
    cases c with
    | none => simp [Compression.parse, Compression.show]
    | lz4 => simp [Compression.parse, Compression.show]
    | zstd l =>
      have := h l rfl
      rw [codec_zstd (by omega), if_pos this]
  · rintro l rfl h hl
    rw [codec_zstd h, if_neg hl]

/-- C109: only levels that Zstandard has are read. -/
theorem C109_codec_level (s : Text) (l : Int) (h : Compression.parse s = some (.zstd l)) : -5 ≤ l ∧ l ≤ 22 := by
  simp only [Compression.parse] at h
  split at h
  · cases h
  split at h
  · cases h
  split at h
  · split at h
    · split at h
      · cases h
      · split at h
        · cases h; assumption
        · cases h
    · cases h
  · cases h

example : Compression.parse "zstd(-5)".toList = some (.zstd (-5)) ∧ Compression.parse "zstd(23)".toList = Option.none ∧
    Compression.parse "zstd(-6)".toList = Option.none ∧ Compression.parse "zstd".toList = Option.none := by
  decide +kernel

theorem intText_inj {a b : Int} (h : intText a = intText b) : a = b := by
  have key : ∀ n : Nat, ∀ s : Text, Nat.toDigits 10 n ≠ '-' :: s := by
    intro n s h
    have := toDigits_digits n '-' (by rw [h]; simp)
    exact absurd this (by decide)
  have inj : ∀ m n : Nat, Nat.toDigits 10 m = Nat.toDigits 10 n → m = n := by
    intro m n h
    have := congrArg Verif.Sql.digitsVal h
    rwa [toDigits_val, toDigits_val] at this
  simp only [intText] at h
  by_cases ha : a < 0 <;> by_cases hb : b < 0
  · rw [if_pos ha, if_pos hb] at h
    injection h with _ h
    have := inj _ _ h
    omega
  · rw [if_pos ha, if_neg hb] at h
    exact absurd h.symm (key _ _)
  · rw [if_neg ha, if_pos hb] at h
    exact absurd h (key _ _)
  · rw [if_neg ha, if_neg hb] at h
    have := inj _ _ h
    omega

/-- Where the first number ends. -/
theorem digits_split {m n : Nat} {s t : Text} (h : Nat.toDigits 10 m ++ '-' :: s = Nat.toDigits 10 n ++ '-' :: t) :
    Nat.toDigits 10 m = Nat.toDigits 10 n ∧ s = t := by
  have key : ∀ n : Nat, ∀ c ∈ Nat.toDigits 10 n, (decide (c ≠ '-')) = true := fun n c h => by
    simpa using digit_ne (toDigits_digits n c h) (d := '-') (by decide)
  have h1 := congrArg (List.takeWhile fun c => decide (c ≠ '-')) h
  have h2 := congrArg (List.dropWhile fun c => decide (c ≠ '-')) h
  rw [List.takeWhile_append_of_pos (key m), List.takeWhile_append_of_pos (key n)] at h1
  rw [List.dropWhile_append_of_pos (key m), List.dropWhile_append_of_pos (key n)] at h2
  simp at h1 h2
  exact ⟨h1, h2⟩

theorem int_split {a b : Int} {s t : Text} (h : intText a ++ '-' :: s = intText b ++ '-' :: t) : a = b ∧ s = t := by
  have key : ∀ (n : Nat) (x y : Text), Nat.toDigits 10 n ++ x ≠ '-' :: y := by
    intro n x y h
    have hn := digits_ne n
    have hd := toDigits_digits n
    generalize Nat.toDigits 10 n = l at h hn hd
    cases l with
    | nil => exact hn rfl
    | cons c l =>
      injection h with h _
      exact absurd (hd c (by simp)) (by rw [h]; decide)
  by_cases ha : a < 0 <;> by_cases hb : b < 0
  · simp only [intText, ha, hb, if_true, List.cons_append, List.cons.injEq, true_and] at h
    obtain ⟨h1, h2⟩ := digits_split h
    exact ⟨intText_inj (by simp only [intText, ha, hb, if_true, h1]), h2⟩
  · simp only [intText, ha, hb, if_true, if_false, List.cons_append] at h
    exact absurd h.symm (key _ _ _)
  · simp only [intText, ha, hb, if_true, if_false, List.cons_append] at h
    exact absurd h (key _ _ _)
  · simp only [intText, ha, hb, if_false] at h
    obtain ⟨h1, h2⟩ := digits_split h
    exact ⟨intText_inj (by simp only [intText, ha, hb, if_false, h1]), h2⟩

/-- C109: no two locations have the same name, nor the same file. -/
theorem C109_location (id epoch id' epoch' : Int) :
    (uniqueId id epoch = uniqueId id' epoch' → id = id' ∧ epoch = epoch') ∧
      (fileName id epoch = fileName id' epoch' → id = id' ∧ epoch = epoch') := by
  constructor
  · intro h
    obtain ⟨h1, h2⟩ := int_split h
    exact ⟨h1, intText_inj h2⟩
  · intro h
    obtain ⟨h1, h2⟩ := int_split h
    exact ⟨h1, (int_split (s := ['0']) (t := ['0']) h2).1⟩

example : uniqueId 1 (-2) = "1--2".toList ∧ uniqueId (-1) 2 = "-1-2".toList := by decide +kernel

/-- C109: no two shuffles have the same key, whatever the names of their applications. -/
theorem C109_shuffle (app app' : Text) (sid sid' : Int) (h0 : 0 ≤ sid) (h0' : 0 ≤ sid')
    (h : shuffleKey app sid = shuffleKey app' sid') : app = app' ∧ sid = sid' := by
  have e : ∀ (a : Text) (s : Int), 0 ≤ s → (shuffleKey a s).reverse = (Nat.toDigits 10 s.natAbs).reverse ++ '-' :: a.reverse := by
    intro a s hs
    have : ¬ s < 0 := by omega
    simp [shuffleKey, intText, this]
  have key : ∀ n : Nat, ∀ c ∈ (Nat.toDigits 10 n).reverse, (decide (c ≠ '-')) = true := fun n c h => by
    simpa using digit_ne (toDigits_digits n c (List.mem_reverse.1 h)) (d := '-') (by decide)
  have hr := congrArg List.reverse h
  rw [e app sid h0, e app' sid' h0'] at hr
  have h1 := congrArg (List.takeWhile fun c => decide (c ≠ '-')) hr
  have h2 := congrArg (List.dropWhile fun c => decide (c ≠ '-')) hr
  rw [List.takeWhile_append_of_pos (key _), List.takeWhile_append_of_pos (key _)] at h1
  rw [List.dropWhile_append_of_pos (key _), List.dropWhile_append_of_pos (key _)] at h2
  simp at h1 h2
  have := congrArg Verif.Sql.digitsVal h1
  rw [toDigits_val, toDigits_val] at this
  exact ⟨h2, by omega⟩

/-- For ids that are negative, which are never given out, this is not so. -/
example : shuffleKey "a-".toList 2 = shuffleKey "a".toList (-2) := by decide +kernel

end Verif.Celeborn.Names
