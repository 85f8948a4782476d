import Verif.Iceberg.Append

/-!
# C149: appending to an Iceberg table
-/

namespace Verif.Iceberg.Append

/-! ### Types -/

/-- UTC and no time zone are the same. -/
def Spec.zone : Option (List Char) → Option (List Char)
  | none => none
  | some z => if isUtc z then none else some z

/-- A plain type without what does not count. -/
def Spec.plain : Base → Base
  | .timestamp u z => .timestamp u (Spec.zone z)
  | b => b

mutual
/-- A type without what does not count: the names of UTC, the kind of list, and which parts may be NULL. -/
def Spec.norm : Ty → Ty
  | .base b => .base (Spec.plain b)
  | .struct fs => .struct (Spec.normFlds fs)
  | .list _ _ e => .list 0 true (Spec.norm e)
  | .map s fs => .map s (Spec.normFlds fs)
def Spec.normFlds : Flds → Flds
  | .nil => .nil
  | .cons n _ t rest => .cons n true (Spec.norm t) (Spec.normFlds rest)
end

open Spec (norm normFlds)

theorem zone_iff (a b : Option (List Char)) : zoneCompatible a b = true ↔ Spec.zone a = Spec.zone b := by
  cases a with
  | none =>
    cases b with
    | none => simp [zoneCompatible]
    | some b => by_cases hb : isUtc b = true <;> simp [zoneCompatible, Spec.zone, hb]
  | some a =>
    cases b with
    | none => by_cases ha : isUtc a = true <;> simp [zoneCompatible, Spec.zone, ha]
    | some b =>
      by_cases ha : isUtc a = true <;> by_cases hb : isUtc b = true <;> simp [zoneCompatible, Spec.zone, ha, hb]
      · rintro rfl
        exact hb ha
      · rintro rfl
        exact ha hb

theorem base_iff (a b : Base) : baseEq a b = true ↔ Spec.plain a = Spec.plain b := by
  cases a <;> cases b <;> simp [baseEq, Spec.plain, zone_iff]

mutual
theorem equivalent_iff : ∀ a b : Ty, equivalent a b = true ↔ norm a = norm b
  | .base a, b => by
    cases b <;> simp [equivalent, norm, base_iff]
  | .struct fs, b => by
    cases b with
    | struct gs => simp [equivalent, norm, equivalentFlds_iff fs gs]
    | _ => simp [equivalent, norm]
  | .list k n a, b => by
    cases b with
    | list k' n' b => simp [equivalent, norm, equivalent_iff a b]
    | _ => simp [equivalent, norm]
  | .map s fs, b => by
    cases b with
    | map t gs => simp [equivalent, norm, equivalentFlds_iff fs gs]
    | _ => simp [equivalent, norm]
theorem equivalentFlds_iff : ∀ a b : Flds, equivalentFlds a b = true ↔ normFlds a = normFlds b
  | .nil, b => by cases b <;> simp [equivalentFlds, normFlds]
  | .cons n _ t fs, b => by
    cases b with
    | nil => simp [equivalentFlds, normFlds]
    | cons m _ u gs => simp [equivalentFlds, normFlds, equivalent_iff t u, equivalentFlds_iff fs gs, and_assoc]
end

/-- Two types count as the same exactly if they differ only in the name of UTC, the kind of lists, and NULLs inside. -/
theorem C149_equivalent (a b : Ty) : equivalent a b = true ↔ norm a = norm b := equivalent_iff a b

/-- A list of structs with a timestamp in UTC; other names, another number or order of fields do not pass. -/
example : equivalent
      (.list 0 true (.struct (.cons "a" true (.base (.timestamp 6 (some "UTC".toList))) (.cons "b" false (.base .int32) .nil))))
      (.list 2 false (.struct (.cons "a" false (.base (.timestamp 6 (some " etc/utc ".toList))) (.cons "b" true (.base .int32) .nil))))
      = true
    ∧ equivalent (.struct (.cons "a" true (.base .int32) (.cons "b" true (.base .int32) .nil)))
        (.struct (.cons "b" true (.base .int32) (.cons "a" true (.base .int32) .nil))) = false
    ∧ equivalent (.base (.timestamp 6 none)) (.base (.timestamp 6 (some "z".toList))) = true
    ∧ equivalent (.base (.timestamp 6 none)) (.base (.timestamp 6 (some "CET".toList))) = false
    ∧ equivalent (.struct (.cons "a" true (.base .int64) .nil)) (.struct (.cons "a" true (.base .int32) .nil)) = false := by
  decide

/-- The type of a value: the range of an integer, the digits of a decimal, the bits of a fraction and of an exponent,
the length. -/
def Spec.holds : Base → Atom → Prop
  | .int32, .int i => -2 ^ 31 ≤ i ∧ i < 2 ^ 31
  | .int64, .int i => -2 ^ 63 ≤ i ∧ i < 2 ^ 63
  | .float32, .float m e => (-2 ^ 24 < m ∧ m < 2 ^ 24) ∧ -149 ≤ e ∧ e ≤ 104
  | .float64, .float m e => (-2 ^ 53 < m ∧ m < 2 ^ 53) ∧ -1074 ≤ e ∧ e ≤ 971
  | .binary, .bytes _ => True
  | .largeBinary, .bytes _ => True
  | .fixed n, .bytes b => b.length = n
  | .decimal _ p _, .digits i => -(10 : Int) ^ p < i ∧ i < (10 : Int) ^ p
  | .timestamp _ _, .int i => -2 ^ 63 ≤ i ∧ i < 2 ^ 63
  | .other _, .other _ => True
  | _, _ => False

/-- The scale of a decimal. -/
def Spec.scale : Base → Option Int
  | .decimal _ _ s => some s
  | _ => none

/-- Whether the type has bytes of one length. -/
def Spec.isFixed : Base → Bool
  | .fixed _ => true
  | _ => false

/-- A plain column that is accepted can hold all values of the input, unless it is of fixed size; and the digits of a
decimal mean the same. -/
theorem C149_fits {t i : Base} (accepted : writable (.base t) (.base i) = true) :
    Spec.scale t = Spec.scale i ∧ (Spec.isFixed t = false → ∀ a, Spec.holds i a → Spec.holds t a) := by
  rw [writable, Bool.or_eq_true] at accepted
  rcases accepted with h | h
  · rw [equivalent_iff, norm, norm, Ty.base.injEq] at h
    cases t <;> cases i <;> simp only [Spec.plain, reduceCtorEq, Base.timestamp.injEq] at h
    all_goals first
      | (cases h; exact ⟨rfl, fun _ a ha => ha⟩)
      | (refine ⟨rfl, fun _ a ha => ?_⟩; cases a <;> exact ha)
  · cases t <;> cases i <;> simp only [safeCast, Bool.false_eq_true, Bool.and_eq_true, decide_eq_true_eq] at h
    · refine ⟨rfl, fun _ a ha => ?_⟩
      cases a <;> simp only [Spec.holds] at ha ⊢
      omega
    · refine ⟨rfl, fun _ a ha => ?_⟩
      cases a <;> simp only [Spec.holds] at ha ⊢
      omega
    · exact ⟨rfl, fun hf => by cases hf⟩
    · exact ⟨rfl, fun hf => by cases hf⟩
    · next w p s w' p' s' =>
      obtain ⟨⟨-, hs⟩, hp⟩ := h
      refine ⟨by rw [Spec.scale, Spec.scale, hs], fun _ a ha => ?_⟩
      cases a <;> simp only [Spec.holds] at ha ⊢
      have hle : (10 : Int) ^ p' ≤ (10 : Int) ^ p := by
        have := Nat.pow_le_pow_right (n := 10) (by omega) hp
        exact_mod_cast this
      omega

example : writable (.base (.decimal true 40 2)) (.base (.decimal false 10 2)) = true
    ∧ writable (.base (.decimal false 10 2)) (.base (.decimal true 10 2)) = false
    ∧ writable (.base (.decimal false 9 2)) (.base (.decimal false 10 2)) = false
    ∧ writable (.base (.decimal false 12 3)) (.base (.decimal false 10 2)) = false
    ∧ writable (.base .int64) (.base .int32) = true ∧ writable (.base .int32) (.base .int64) = false := by decide

/-! ### Rows -/

/-- What the column should hold: the column of the input with its name, or its write default, or its initial default,
or NULL. -/
def Spec.stored (input : List InCol) (n : Nat) (c : TableCol) : List (Option Atom) :=
  match input.find? fun i => decide (i.name = c.name) with
  | some i => i.rows
  | none =>
    match c.writeDefault, c.initialDefault with
    | some a, _ => List.replicate n (some a)
    | none, some a => List.replicate n (some a)
    | none, none => List.replicate n none

/-- Bytes for columns of fixed size have that size. -/
def Spec.lengths (table : List TableCol) (input : List InCol) : Prop :=
  ∀ c ∈ table, ∀ n, c.ty = .base (.fixed n) → ∀ i ∈ input, i.name = c.name →
    ∀ b, some (.bytes b) ∈ i.rows → b.length = n

open Spec (stored lengths)

theorem castVal_id {t s : Ty} {v : Option Atom}
    (h : ∀ n, t = .base (.fixed n) → ∀ b, v = some (.bytes b) → b.length = n) : castVal t s v = v := by
  unfold castVal
  split
  · rw [if_pos (h _ rfl _ rfl)]
  · rw [if_pos (h _ rfl _ rfl)]
  · rfl

theorem castVal_same (t : Ty) (v : Option Atom) : castVal t t v = v := by
  unfold castVal
  split <;> simp_all

/-- A column is aligned to what it should hold, of its own type if it is not in the input; or there is nothing to
hold. -/
theorem align_spec (input : List InCol) (n : Nat) (c : TableCol) :
    (∃ t, align input n c = some (t, stored input n c)
        ∧ (t = c.ty ∨ ∃ i ∈ input, i.name = c.name ∧ stored input n c = i.rows))
    ∨ (align input n c = none ∧ c.nullable = false ∧ c.default = none ∧ ∀ i ∈ input, i.name ≠ c.name) := by
  unfold align stored
  cases h : input.find? (fun i => decide (i.name = c.name)) with
  | some i =>
    exact .inl ⟨i.ty, rfl, .inr ⟨i, List.mem_of_find?_eq_some h, by simpa using List.find?_some h, rfl⟩⟩
  | none =>
    have absent : ∀ i ∈ input, i.name ≠ c.name := by
      intro i hi hn
      have := List.find?_eq_none.1 h i hi
      simp [hn] at this
    cases hw : c.writeDefault with
    | some a => exact .inl ⟨c.ty, by simp [TableCol.default, hw], .inl rfl⟩
    | none =>
      cases hd : c.initialDefault with
      | some a => exact .inl ⟨c.ty, by simp [TableCol.default, hw, hd], .inl rfl⟩
      | none =>
        cases hn : c.nullable with
        | true => exact .inl ⟨c.ty, by simp [TableCol.default, hw, hd], .inl rfl⟩
        | false => exact .inr ⟨by simp [TableCol.default, hw, hd], rfl, by simp [TableCol.default, hw, hd], absent⟩

/-- What a column yields if the lengths are right. -/
theorem column_spec {table : List TableCol} {input : List InCol} (fixed : lengths table input) (n : Nat) {c : TableCol}
    (hc : c ∈ table) {t : Ty} (h : align input n c = some (t, stored input n c)
      ∧ (t = c.ty ∨ ∃ i ∈ input, i.name = c.name ∧ stored input n c = i.rows)) :
    cast c (t, stored input n c) = if !c.nullable && (stored input n c).any Option.isNone then none
      else some (stored input n c) := by
  have e : (stored input n c).map (castVal c.ty t) = stored input n c := by
    refine List.map_congr_left (g := id) (fun v hv => ?_) |>.trans (List.map_id _)
    rcases h.2 with rfl | ⟨i, hi, hin, hr⟩
    · exact castVal_same _ _
    · refine castVal_id fun m hm b hb => fixed c hc m hm i hi hin b ?_
      rw [← hr, ← hb]
      exact hv
  simp only [cast, e]

theorem columns_spec {table : List TableCol} {input : List InCol} (fixed : lengths table input) (n : Nat) :
    ∀ cs : List TableCol, (∀ c ∈ cs, c ∈ table) → ∀ out, columns input n cs = some out ↔
      (out = cs.map (stored input n) ∧ ∀ c ∈ cs, (c.nullable = false → none ∉ stored input n c)
        ∧ (c.nullable = false → c.default = none → ∃ i ∈ input, i.name = c.name))
  | [], _, out => by
    constructor
    · intro h
      cases h
      exact ⟨rfl, fun c hc => by cases hc⟩
    · rintro ⟨rfl, -⟩
      rfl
  | c :: rest, sub, out => by
    have ih := columns_spec fixed n rest fun c hc => sub c (List.mem_cons_of_mem _ hc)
    rw [columns]
    rcases align_spec input n c with ⟨t, ht⟩ | ⟨ha, h1, h2, h3⟩
    · rw [ht.1, Option.bind_some, column_spec fixed n (sub c List.mem_cons_self) ht]
      have some_source : c.nullable = false → c.default = none → ∃ i ∈ input, i.name = c.name := by
        intro hn hd
        rcases ht.2 with rfl | ⟨i, hi, hin, -⟩
        · cases hf : input.find? (fun i => decide (i.name = c.name)) with
          | some i => exact ⟨i, List.mem_of_find?_eq_some hf, by simpa using List.find?_some hf⟩
          | none =>
            have := ht.1
            simp [align, hf, hd, hn] at this
        · exact ⟨i, hi, hin⟩
      by_cases hbad : (!c.nullable && (stored input n c).any Option.isNone) = true
      · rw [if_pos hbad, Option.bind_none]
        constructor
        · intro h; cases h
        · rintro ⟨-, h⟩
          simp only [Bool.and_eq_true, Bool.not_eq_true', List.any_eq_true] at hbad
          obtain ⟨hn, v, hv, hv'⟩ := hbad
          cases v with
          | some _ => cases hv'
          | none => exact absurd hv ((h c List.mem_cons_self).1 hn)
      · rw [if_neg hbad, Option.bind_some]
        have good : c.nullable = false → none ∉ stored input n c := by
          intro hn hm
          exact hbad (by rw [hn, Bool.not_false, Bool.true_and]; exact List.any_eq_true.2 ⟨none, hm, rfl⟩)
        constructor
        · intro h
          obtain ⟨cols, hcols, h⟩ := Option.bind_eq_some_iff.1 h
          obtain ⟨h1, h2⟩ := (ih cols).1 hcols
          cases h
          refine ⟨by rw [h1, List.map_cons], fun d hd => ?_⟩
          rcases List.mem_cons.1 hd with rfl | hd
          · exact ⟨good, some_source⟩
          · exact h2 d hd
        · rintro ⟨rfl, h⟩
          rw [(ih (rest.map (stored input n))).2 ⟨rfl, fun d hd => h d (List.mem_cons_of_mem _ hd)⟩, Option.bind_some,
            List.map_cons]
    · rw [ha, Option.bind_none]
      constructor
      · intro h; cases h
      · rintro ⟨-, h⟩
        obtain ⟨i, hi, hin⟩ := (h c List.mem_cons_self).2 h1 h2
        exact absurd hin (h3 i hi)

/-- The input fits the table: its columns are in the table with types that can be written, required columns without
defaults are in the input, and no NULL is to be stored in a required column. -/
structure Spec.Fits (table : List TableCol) (input : List InCol) (n : Nat) : Prop where
  known : ∀ i ∈ input, ∃ c, (table.find? fun c => decide (c.name = i.name)) = some c ∧ writable c.ty i.ty = true
  present : ∀ c ∈ table, c.nullable = false → c.writeDefault = none → c.initialDefault = none →
    ∃ i ∈ input, i.name = c.name
  filled : ∀ c ∈ table, c.nullable = false → none ∉ stored input n c

theorem default_none (c : TableCol) : c.default = none ↔ c.writeDefault = none ∧ c.initialDefault = none := by
  cases h : c.writeDefault <;> simp [TableCol.default, h]

/-- A write succeeds exactly if the input fits the table, and then stores exactly what it should, if values for columns
of fixed size have that size. -/
theorem C149_write_partial {table : List TableCol} {input : List InCol} (fixed : lengths table input) (n : Nat)
    (out : List (List (Option Atom))) :
    write table input n = some out ↔ Spec.Fits table input n ∧ out = table.map (stored input n) := by
  have key := columns_spec fixed n table (fun _ h => h) out
  unfold write
  constructor
  · intro h
    split at h
    · next hv =>
      obtain ⟨h1, h2⟩ := key.1 h
      refine ⟨⟨fun i hi => ?_, fun c hc hn hw hd => (h2 c hc).2 hn ((default_none c).2 ⟨hw, hd⟩), fun c hc => (h2 c hc).1⟩, h1⟩
      rw [validate, Bool.and_eq_true] at hv
      have := List.all_eq_true.1 hv.1 i hi
      split at this
      · next c hc => exact ⟨c, hc, this⟩
      · cases this
    · cases h
  · rintro ⟨⟨known, present, filled⟩, rfl⟩
    have hv : validate table input = true := by
      rw [validate, Bool.and_eq_true]
      refine ⟨List.all_eq_true.2 fun i hi => ?_, List.all_eq_true.2 fun c hc => ?_⟩
      · obtain ⟨c, h1, h2⟩ := known i hi
        rw [h1]
        exact h2
      · cases hn : c.nullable with
        | true => simp
        | false =>
          cases hd : c.default with
          | some a => simp
          | none =>
            have := (default_none c).1 hd
            obtain ⟨i, hi, hin⟩ := present c hc hn this.1 this.2
            rw [Bool.or_eq_true]
            exact .inl (List.any_eq_true.2 ⟨i, hi, by simpa using hin⟩)
    rw [if_pos hv]
    refine key.2 ⟨rfl, fun c hc => ⟨filled c hc, fun hn hd => ?_⟩⟩
    have := (default_none c).1 hd
    exact present c hc hn this.1 this.2

/-- A table with a required, a widened, a defaulted, an optional and a fixed column. -/
def Spec.table : List TableCol :=
  [⟨"a", .base .int64, false, none, none⟩, ⟨"b", .base .int32, false, some (.int 7), some (.int 8)⟩,
   ⟨"c", .base (.other 0), true, none, none⟩, ⟨"d", .base (.fixed 2), true, none, none⟩]

example : write Spec.table [⟨"d", .base .binary, [some (.bytes [1, 2]), none]⟩, ⟨"a", .base .int32, [some (.int 5), some (.int 6)]⟩] 2
      = some [[some (.int 5), some (.int 6)], [some (.int 7), some (.int 7)], [none, none], [some (.bytes [1, 2]), none]]
    ∧ write Spec.table [⟨"a", .base .int32, [some (.int 5), none]⟩] 2 = none
    ∧ write Spec.table [⟨"b", .base .int32, [some (.int 5)]⟩] 1 = none
    ∧ write Spec.table [⟨"a", .base .int32, [some (.int 5)]⟩, ⟨"e", .base .int32, [some (.int 5)]⟩] 1 = none := by decide

example : lengths Spec.table [⟨"d", .base .binary, [some (.bytes [1, 2]), none]⟩] := by
  intro c hc n hn i hi hin b hb
  simp only [List.mem_singleton] at hi
  subst hi
  simp only [List.mem_cons, Option.some.injEq, Atom.bytes.injEq, reduceCtorEq, List.not_mem_nil, or_false] at hb
  subst hb
  simp only [Spec.table, List.mem_cons, List.not_mem_nil, or_false] at hc
  rcases hc with rfl | rfl | rfl | rfl <;> simp_all

theorem columns_required (input : List InCol) (n : Nat) : ∀ (cs : List TableCol) (out : List (List (Option Atom))),
    columns input n cs = some out → out.length = cs.length ∧
      ∀ (k : Nat) (c : TableCol) (col : List (Option Atom)), cs[k]? = some c → out[k]? = some col →
        c.nullable = false → none ∉ col
  | [], out, h => by
    cases h
    simp
  | c :: rest, out, h => by
    rw [columns] at h
    obtain ⟨src, -, h⟩ := Option.bind_eq_some_iff.1 h
    obtain ⟨col, hcol, h⟩ := Option.bind_eq_some_iff.1 h
    obtain ⟨cols, hcols, h⟩ := Option.bind_eq_some_iff.1 h
    cases h
    obtain ⟨h1, h2⟩ := columns_required input n rest cols hcols
    refine ⟨by simp [h1], fun k d e hd he hn => ?_⟩
    cases k with
    | zero =>
      simp only [List.getElem?_cons_zero, Option.some.injEq] at hd he
      subst hd he
      unfold cast at hcol
      split at hcol
      · cases hcol
      · next hb =>
        cases hcol
        intro hm
        exact hb (by rw [hn, Bool.not_false, Bool.true_and]; exact List.any_eq_true.2 ⟨none, hm, rfl⟩)
    | succ k => exact h2 k d e (by simpa using hd) (by simpa using he) hn

/-- A required column never gets a NULL, whatever the input. -/
theorem C149_required {table : List TableCol} {input : List InCol} {n : Nat} {out : List (List (Option Atom))}
    (written : write table input n = some out) : out.length = table.length ∧
      ∀ (k : Nat) (c : TableCol) (col : List (Option Atom)), table[k]? = some c → out[k]? = some col →
        c.nullable = false → none ∉ col := by
  unfold write at written
  split at written
  · exact columns_required input n table out written
  · cases written

/-- A value of the wrong length for an optional column of fixed size is replaced by NULL without an error. -/
theorem C149_wrong_length {n : Nat} {b : List Nat} (wrong : b.length ≠ n) (name : String) :
    write [⟨name, .base (.fixed n), true, none, none⟩] [⟨name, .base .binary, [some (.bytes b)]⟩] 1 = some [[none]] := by
  simp [write, validate, writable, equivalent, baseEq, safeCast, columns, align, cast, castVal, wrong]

end Verif.Iceberg.Append
