import Verif.Delta.WideningLemmas
import Verif.Delta.SchemaProps
import Mathlib.Data.Rat.Cast.Order
import Mathlib.Tactic.Ring
import Mathlib.Tactic.Linarith
import Mathlib.Tactic.NormNum
/-!
# C113: Delta type widening
-/

namespace Verif.Delta.Schema

open Spec

namespace Spec

/-- The numbers that a value of a type can be. A date or a timestamp without time zone is the number
of microseconds since the epoch at which it starts; a date is an `i32` number of days and a timestamp
an `i64` number of microseconds. Floating point infinities, NaN and the sign of zero are left out,
and the other types have no numbers. -/
def Holds : Prim → ℚ → Prop
  | .byte, v => ∃ m : ℤ, v = m ∧ -2 ^ 7 ≤ m ∧ m < 2 ^ 7
  | .short, v => ∃ m : ℤ, v = m ∧ -2 ^ 15 ≤ m ∧ m < 2 ^ 15
  | .integer, v => ∃ m : ℤ, v = m ∧ -2 ^ 31 ≤ m ∧ m < 2 ^ 31
  | .long, v => ∃ m : ℤ, v = m ∧ -2 ^ 63 ≤ m ∧ m < 2 ^ 63
  | .float, v => ∃ m e : ℤ, v = m * 2 ^ e ∧ -2 ^ 24 < m ∧ m < 2 ^ 24 ∧ -149 ≤ e ∧ e ≤ 104
  | .double, v => ∃ m e : ℤ, v = m * 2 ^ e ∧ -2 ^ 53 < m ∧ m < 2 ^ 53 ∧ -1074 ≤ e ∧ e ≤ 971
  | .decimal p s, v => ∃ m : ℤ, v * 10 ^ s = m ∧ -10 ^ p < m ∧ m < 10 ^ p
  | .date, v => ∃ d : ℤ, v = d * 86400000000 ∧ -2 ^ 31 ≤ d ∧ d < 2 ^ 31
  | .timestampNtz, v => ∃ m : ℤ, v = m ∧ -2 ^ 63 ≤ m ∧ m < 2 ^ 63
  | _, _ => False

/-- Schemas that a schema becomes through a sequence of accepted candidates. -/
inductive Widened : Flds → Flds → Prop
  | refl (s : Flds) : Widened s s
  | step {s u out : Flds} (cand : Flds) (r : Widened s u) (names : NamesOk cand)
      (carries : Carries u cand) (h : addWidening u cand = some out) : Widened s out

end Spec

/-! ## The decision table -/

theorem int_decimal {m : ℤ} {base p s : ℕ} (h : decimalWider p s base = true) (lo : -10 ^ base < m)
    (hi : m < 10 ^ base) : Holds (.decimal p s) m := by
  simp only [decimalWider, Bool.and_eq_true, decide_eq_true_eq] at h
  have pos : (0 : ℤ) < 10 ^ s := by positivity
  have le : (10 : ℤ) ^ base * 10 ^ s ≤ 10 ^ p := by
    rw [← pow_add]
    exact pow_le_pow_right₀ (by norm_num) (by omega)
  refine ⟨m * 10 ^ s, by push_cast; ring, ?_, ?_⟩
  · have : -10 ^ base * 10 ^ s < m * 10 ^ s := mul_lt_mul_of_pos_right lo pos
    linarith
  · have : m * 10 ^ s < 10 ^ base * 10 ^ s := mul_lt_mul_of_pos_right hi pos
    linarith

theorem int_double {m : ℤ} (lo : -2 ^ 31 ≤ m) (hi : m < 2 ^ 31) : Holds .double m :=
  ⟨m, 0, by simp, by omega, by omega, by omega, by omega⟩

theorem decimal_decimal {p s p' s' : ℕ} {v : ℚ} (a : (s' : Int) - s ≤ (p' : Int) - p)
    (b : (0 : Int) ≤ (s' : Int) - s) (h : Holds (.decimal p s) v) : Holds (.decimal p' s') v := by
  obtain ⟨m, e, lo, hi⟩ := h
  obtain ⟨d, rfl⟩ : ∃ d, s' = s + d := ⟨s' - s, by omega⟩
  have pos : (0 : ℤ) < 10 ^ d := by positivity
  have le : (10 : ℤ) ^ p * 10 ^ d ≤ 10 ^ p' := by
    rw [← pow_add]
    exact pow_le_pow_right₀ (by norm_num) (by omega)
  refine ⟨m * 10 ^ d, by push_cast; rw [← e]; ring, ?_, ?_⟩
  · have : -10 ^ p * 10 ^ d < m * 10 ^ d := mul_lt_mul_of_pos_right lo pos
    linarith
  · have : m * 10 ^ d < 10 ^ p * 10 ^ d := mul_lt_mul_of_pos_right hi pos
    linarith

/-- **C113, lossless.** A type change is accepted only if the new type holds every number of the old
one, except that a date is only covered if its start fits a timestamp. -/
theorem C113_lossless_partial {a b : Prim} {v : ℚ} (h : supported a b = true)
    (date : a = .date → b = .timestampNtz → -2 ^ 63 ≤ v ∧ v < 2 ^ 63) (hv : Holds a v) :
    Holds b v := by
  by_cases e : a = b
  · exact e ▸ hv
  · cases a <;> cases b <;>
      first
      | (exfalso; simp_all [supported, rankLess, integralRank, otherChange]; done)
      | (obtain ⟨m, rfl, lo, hi⟩ := hv
         first
         | exact ⟨m, rfl, by omega, by omega⟩
         | exact int_double (by omega) (by omega)
         | (simp only [supported, rankLess, integralRank, otherChange, e, decide_false,
              Bool.false_or] at h
            exact int_decimal h (by omega) (by omega)))
      | skip
    · obtain ⟨m, e, rfl, h1, h2, h3, h4⟩ := hv
      exact ⟨m, e, rfl, by omega, by omega, by omega, by omega⟩
    · obtain ⟨d, rfl, h1, h2⟩ := hv
      obtain ⟨k1, k2⟩ := date rfl rfl
      refine ⟨d * 86400000000, by push_cast; rfl, ?_, ?_⟩
      · exact_mod_cast k1
      · exact_mod_cast k2
    · simp only [supported, rankLess, integralRank, otherChange, e, decide_false, Bool.false_or,
        Bool.and_eq_true, decide_eq_true_eq] at h
      exact decimal_decimal h.1 h.2 hv

example : supported .integer (.decimal 12 2) = true ∧ Holds .integer (-7) ∧
    supported (.decimal 5 2) (.decimal 9 4) = true ∧ Holds (.decimal 5 2) (12345 / 100) ∧
    supported .date .timestampNtz = true ∧ Holds .date (20000 * 86400000000) :=
  ⟨by decide, ⟨-7, by norm_num, by norm_num, by norm_num⟩, by decide,
    ⟨12345, by norm_num, by norm_num, by norm_num⟩, by decide,
    ⟨20000, by norm_num, by norm_num, by norm_num⟩⟩

/-- **C113, integers.** Between integer types exactly the changes to a type that holds every number
of the old one are accepted. -/
theorem C113_integers {a b : Prim} (ha : a ∈ [Prim.byte, .short, .integer, .long])
    (hb : b ∈ [Prim.byte, .short, .integer, .long]) :
    supported a b = true ↔ ∀ v, Holds a v → Holds b v := by
  constructor
  · intro h v hv
    refine C113_lossless_partial h (fun e => ?_) hv
    subst e; simp at ha
  · intro h
    simp only [List.mem_cons, List.not_mem_nil, or_false] at ha hb
    rcases ha with rfl | rfl | rfl | rfl <;> rcases hb with rfl | rfl | rfl | rfl <;>
      first
      | (decide; done)
      | (exfalso
         first
         | (obtain ⟨m, e, h1, h2⟩ := h (2 ^ 14) ⟨2 ^ 14, by norm_num, by norm_num, by norm_num⟩
            have e : (2 : ℤ) ^ 14 = m := by exact_mod_cast e
            omega)
         | (obtain ⟨m, e, h1, h2⟩ := h (2 ^ 30) ⟨2 ^ 30, by norm_num, by norm_num, by norm_num⟩
            have e : (2 : ℤ) ^ 30 = m := by exact_mod_cast e
            omega)
         | (obtain ⟨m, e, h1, h2⟩ := h (2 ^ 62) ⟨2 ^ 62, by norm_num, by norm_num, by norm_num⟩
            have e : (2 : ℤ) ^ 62 = m := by exact_mod_cast e
            omega))

example : supported .byte .short = true ∧ supported .short .byte = false ∧
    supported .short .integer = true ∧ supported .integer .long = true := by decide

/-- **C113, refuted for dates.** The change from date to timestamp is accepted although there are
dates that no timestamp can hold. -/
theorem C113_date_refuted :
    supported .date .timestampNtz = true ∧ ∃ v, Holds .date v ∧ ¬ Holds .timestampNtz v := by
  refine ⟨by decide, (2 ^ 30 : ℤ) * 86400000000, ⟨2 ^ 30, by push_cast; rfl, by norm_num, by norm_num⟩, ?_⟩
  rintro ⟨m, e, _, hi⟩
  have : m = 2 ^ 30 * 86400000000 := by exact_mod_cast e.symm
  omega

/-- **C113, order.** Accepted changes compose, and no accepted change can be undone by another one:
a sequence of changes never returns to an earlier type. -/
theorem C113_order {a b c : Prim} :
    (supported a b = true → supported b c = true → supported a c = true) ∧
    (supported a b = true → supported b a = true → a = b) :=
  ⟨supported_trans, supported_antisymm⟩

example : supported .byte .integer = true ∧ supported .integer (.decimal 10 0) = true ∧
    supported (.decimal 10 0) (.decimal 12 2) = true ∧ supported .integer .byte = false := by decide

/-- **C113, Iceberg.** In a table that Iceberg readers must be able to read, a type can only change
from an integer type to a wider one, from float to double, and from a decimal to one of the same
scale and no smaller precision. In other tables every accepted change is available. -/
theorem C113_iceberg {a b : Prim} :
    (supportedFor true a b = true → a = b ∨
      (a ∈ [.byte, .short, .integer] ∧ b ∈ [.short, .integer, .long]) ∨ (a = .float ∧ b = .double) ∨
      ∃ p p' s, a = .decimal p s ∧ b = .decimal p' s ∧ p ≤ p') ∧
    (supportedFor true a b = true → supported a b = true) ∧
    supportedFor false a b = supported a b := by
  refine ⟨fun h => ?_, fun h => ?_, ?_⟩
  · by_cases e : a = b
    · exact Or.inl e
    · right
      cases a <;> cases b <;>
        first
        | (exfalso; simp_all [supportedFor, icebergV2, supported, rankLess, integralRank, otherChange]; done)
        | (left; simp; done)
        | (right; left; simp; done)
        | (right; right
           simp [supportedFor, icebergV2, supported, rankLess, integralRank, otherChange] at h e ⊢
           omega)
  · simp only [supportedFor, Bool.or_eq_true, Bool.and_eq_true] at h
    rcases h with h | h
    · simp [supported, h]
    · exact h.1
  · simp only [supportedFor, supported, Bool.not_false, Bool.true_or, Bool.and_true]
    cases decide (a = b) <;> simp

example : supportedFor true .integer .long = true ∧ supportedFor true .integer .double = false ∧
    supportedFor false .integer .double = true ∧
    supportedFor true (.decimal 5 2) (.decimal 9 2) = true := by decide

/-! ## The record of type changes -/

/-- `id: int, s: struct<xs: array<int>, m: map<int, float>>`. -/
def narrow : Flds :=
  .cons (fresh "id") (.prim .integer)
    (.cons (fresh "s") (.struct (.cons (fresh "xs") (.array (.prim .integer) true)
      (.cons (fresh "m") (.map (.prim .integer) (.prim .float) true) .nil))) .nil)

/-- `id: int` and `s.xs` widened to `bigint` and `decimal(12, 0)`, the values of `s.m` to `double`,
and a new column `n`. -/
def wide : Flds :=
  .cons (fresh "id") (.prim .long)
    (.cons (fresh "s") (.struct (.cons (fresh "xs") (.array (.prim (.decimal 12 0)) true)
      (.cons (fresh "m") (.map (.prim .integer) (.prim .double) true) .nil)))
      (.cons (fresh "n") (.prim .date) .nil))

/-- `wide` widened once more: `s.xs` to `decimal(14, 2)`. -/
def wider : Flds :=
  .cons (fresh "id") (.prim .long)
    (.cons (fresh "s") (.struct (.cons (fresh "xs") (.array (.prim (.decimal 14 2)) true)
      (.cons (fresh "m") (.map (.prim .integer) (.prim .double) true) .nil)))
      (.cons (fresh "n") (.prim .date) .nil))

/-- **C113, recorded.** The schema written for an accepted candidate is the candidate in names, types
and nullability. A column that exists keeps its id and physical name, and at every place inside it the
record of type changes is the earlier one followed by the change made now, if any; all the changes are
accepted ones. A new column is as in the candidate. -/
theorem C113_recorded {old cand out : Flds} (h : addWidening old cand = some out) :
    plain out = plain cand ∧
    ∀ p k t, column out p = some (k, t) → ∃ f t', column cand p = some (f, t') ∧
      plainTy t = plainTy t' ∧
      (column old p = none → k = f) ∧
      ∀ g u, column old p = some (g, u) →
        k.name = f.name ∧ k.nullable = f.nullable ∧ k.id = f.id.or g.id ∧ k.phys = f.phys.or g.phys ∧
        (∀ q a, leaf u q = some a → ∃ b, leaf t q = some b ∧ supported a b = true) ∧
        ∀ q, hist k.changes q = hist (f.changes.or g.changes) q ++ change q (leaf u q) (leaf t q) := by
  unfold addWidening at h
  split at h
  · cases h
  · rename_i fs hfs
    obtain rfl := checked_some h
    have r := rewriteFlds_rel cand old hfs
    refine ⟨r.1, fun p k t e => ?_⟩
    obtain ⟨f, t', hf, pl, lf, m⟩ := r.2.2 p k t e
    refine ⟨f, t', hf, pl, fun n => ?_, fun g u hg => ?_⟩
    · rw [n] at m
      exact m
    · rw [hg] at m
      obtain ⟨a, b, c, d, s, h⟩ := m
      exact ⟨a, b, c, d, fun q x hx => by rw [lf]; exact s q x hx, fun q => by rw [lf]; exact h q⟩

example : (addWidening narrow wide).isSome = true ∧
    ((addWidening narrow wide).bind (fun s => column s [.field "s", .field "xs"])).map
      (fun x => hist x.1.changes [.element]) =
      some [{ from_ := .integer, to_ := .decimal 12 0, path := [.element] }] := by decide +kernel

theorem chained_step {old cand out : Flds} (ch : Chained old) (carries : Carries old cand)
    (h : addWidening old cand = some out) : Chained out := by
  intro p k t e q
  obtain ⟨f, t', hf, -, new, kept⟩ := (C113_recorded h).2 p k t e
  cases ho : column old p with
  | none =>
    rw [new ho]
    rcases carries p f t' hf with c | ⟨g, u, hg, -⟩
    · rw [c]
      exact chain_nil _
    · rw [ho] at hg
      cases hg
  | some x =>
    obtain ⟨g, u⟩ := x
    obtain ⟨-, -, -, -, sup, hi⟩ := kept g u ho
    have same : f.changes.or g.changes = g.changes := by
      rcases carries p f t' hf with c | ⟨g', u', hg', c⟩
      · rw [c, Option.none_or]
      · rw [ho] at hg'
        cases hg'
        rw [c]
        cases g.changes <;> rfl
    rw [hi q, same]
    have was := ch p g u ho q
    cases hl : leaf u q with
    | none =>
      rw [hl] at was
      have empty : hist g.changes q = [] := by
        cases hc : hist g.changes q with
        | nil => rfl
        | cons c cs =>
          obtain ⟨b, e, -⟩ := chain_supported was (c := c) (by rw [hc]; exact List.mem_cons_self)
          cases e
      rw [empty]
      exact chain_nil _
    | some a =>
      obtain ⟨b, hb, s⟩ := sup q a hl
      rw [hb, change]
      rw [hl] at was
      split
      · rename_i e
        rw [List.append_nil, ← e]
        exact was
      · rename_i ne
        exact chain_snoc was s ne

theorem chained_validate {s : Flds} (names : NamesOk s) (ch : Chained s) : validate s = true :=
  validate_of names (fun p f u e => validateChanges_chain (fun q => ch p f u e q))

/-- A schema in which no type change is recorded. -/
theorem chained_fresh {s : Flds} (h : ∀ p f t, column s p = some (f, t) → f.changes = none) :
    Chained s := by
  intro p f t e q
  rw [h p f t e]
  exact chain_nil _

/-- **C113, history.** Through any sequence of accepted candidates, the record of every column is, at
every place inside it, an unbroken chain of accepted changes that ends in the present type, so that
every type the place ever had can be widened to the present one, and the table can be opened again. -/
theorem C113_history {s u : Flds} (names : NamesOk s) (ch : Chained s) (r : Widened s u) :
    Chained u ∧ validate u = true ∧
    ∀ p f t, column u p = some (f, t) → ∀ q, ∀ c ∈ hist f.changes q,
      ∃ b, leaf t q = some b ∧ supported c.from_ b = true ∧ supported c.to_ b = true := by
  have main : NamesOk u ∧ Chained u := by
    induction r with
    | refl => exact ⟨names, ch⟩
    | step cand r nc cc h ih =>
      obtain ⟨-, ch⟩ := ih
      refine ⟨?_, chained_step ch cc h⟩
      have := (C113_recorded h).1
      rw [← (namesOk_plain _).1, this, (namesOk_plain _).1]
      exact nc
  exact ⟨main.2, chained_validate main.1 main.2,
    fun p f t e q c hc => chain_supported (main.2 p f t e q) hc⟩

mutual
/-- No type change is recorded inside a type. -/
def Spec.unchangedTy : Ty → Bool
  | .prim _ => true
  | .struct fs => unchanged fs
  | .array e _ => unchangedTy e
  | .map k v _ => unchangedTy k && unchangedTy v
/-- No type change is recorded in a schema. -/
def Spec.unchanged : Flds → Bool
  | .nil => true
  | .cons h t r => h.changes.isNone && unchangedTy t && unchanged r
end

mutual
theorem unchangedTy_column {t : Ty} (h : unchangedTy t = true) {p : Path} {x : Hdr × Ty}
    (e : columnTy t p = some x) : x.1.changes = none := by
  match t with
  | .prim _ => simp [columnTy] at e
  | .struct fs =>
    rw [columnTy] at e
    exact unchanged_column (fs := fs) (by simpa [unchangedTy] using h) e
  | .array el n =>
    match p with
    | .element :: q =>
      rw [columnTy] at e
      exact unchangedTy_column (t := el) (by simpa [unchangedTy] using h) e
    | [] | .field _ :: _ | .key :: _ | .value :: _ => simp [columnTy] at e
  | .map k v n =>
    rw [unchangedTy, Bool.and_eq_true] at h
    match p with
    | .key :: q =>
      rw [columnTy] at e
      exact unchangedTy_column h.1 e
    | .value :: q =>
      rw [columnTy] at e
      exact unchangedTy_column h.2 e
    | [] | .field _ :: _ | .element :: _ => simp [columnTy] at e
theorem unchanged_column {fs : Flds} (h : unchanged fs = true) {p : Path} {x : Hdr × Ty}
    (e : column fs p = some x) : x.1.changes = none := by
  match fs with
  | .nil => simp [column] at e
  | .cons g t r =>
    rw [unchanged, Bool.and_eq_true, Bool.and_eq_true] at h
    match p with
    | .field n :: q =>
      rw [column] at e
      split at e
      · split at e
        · cases e
          simpa using h.1.1
        · exact unchangedTy_column h.1.2 e
      · exact unchanged_column h.2 e
    | [] | .element :: _ | .key :: _ | .value :: _ => simp [column] at e
end

theorem carries_unchanged (old : Flds) {cand : Flds} (h : unchanged cand = true) :
    Carries old cand := fun _ _ _ e => Or.inl (unchanged_column h e)

example : ∃ u, Widened narrow u ∧ NamesOk narrow ∧ Chained narrow ∧
    (column u [.field "s", .field "xs"]).map (fun x => hist x.1.changes [.element]) =
      some [{ from_ := .integer, to_ := .decimal 12 0, path := [.element] },
        { from_ := .decimal 12 0, to_ := .decimal 14 2, path := [.element] }] := by
  have a : (addWidening narrow wide).isSome = true := by decide +kernel
  have b : ((addWidening narrow wide).bind (fun s => addWidening s wider)).isSome = true := by
    decide +kernel
  have c : ((addWidening narrow wide).bind (fun s => addWidening s wider)).map
      (fun u => (column u [.field "s", .field "xs"]).map (fun x => hist x.1.changes [.element])) =
      some (some [{ from_ := .integer, to_ := .decimal 12 0, path := [.element] },
        { from_ := .decimal 12 0, to_ := .decimal 14 2, path := [.element] }]) := by
    decide +kernel
  obtain ⟨s, hs⟩ := Option.isSome_iff_exists.1 a
  rw [hs, Option.bind_some] at b c
  obtain ⟨u, hu⟩ := Option.isSome_iff_exists.1 b
  rw [hu] at c
  refine ⟨u, .step wider (.step wide (.refl narrow) ?_ (carries_unchanged _ (by decide +kernel)) hs) ?_
    (carries_unchanged _ (by decide +kernel)) hu, ?_,
    chained_fresh (fun p f t e => unchanged_column (x := (f, t)) (by decide +kernel) e), ?_⟩
  · simp [wide, NamesOk, NamesOkTy, Flds.names, fresh]
  · simp [wider, NamesOk, NamesOkTy, Flds.names, fresh]
  · simp [narrow, NamesOk, NamesOkTy, Flds.names, fresh]
  · simpa using c

/-- **C113, alter.** `ALTER TABLE … ALTER COLUMN path TYPE new` gives the place the new type, leaves
the types at all places that are neither inside nor around it as they are, and changes nothing else:
giving the place its old type again restores the schema exactly. -/
theorem C113_alter {s out : Flds} {n : String} {path : List String} {new : Ty} (names : NamesOk s)
    (h : alterColumn s (n :: path) new = some out) :
    typeAt out n path = some new ∧
    (∃ was, typeAt s n path = some was ∧ alterColumn out (n :: path) was = some s) ∧
    ∀ m q, ¬ (n :: path) <+: (m :: q) → ¬ (m :: q) <+: (n :: path) → typeAt out m q = typeAt s m q := by
  rw [alterColumn] at h
  split at h
  · cases h
  · rename_i fs found hfs
    split at h
    · cases h
    · rename_i fs' hc
      obtain rfl := checked_some hc
      split at h
      · rename_i hf
        subst hf
        cases h
        obtain ⟨a, ⟨was, b, c⟩, d⟩ := alterFlds_spec s n path new names hfs
        refine ⟨a, ⟨was, b, ?_⟩, fun m q h1 h2 => ?_⟩
        · rw [alterColumn, c]
          simp [checked_ok names]
        · refine d m q ?_ ?_
          · rintro rfl hp
            exact h1 (by simpa using hp)
          · rintro rfl hp
            exact h2 (by simpa using hp)
      · cases h

example : NamesOk narrow ∧ (alterColumn narrow ["s", "m", "value"] (.prim .double)).isSome = true ∧
    (alterColumn narrow ["s", "q"] (.prim .double)).isSome = false :=
  ⟨by simp [narrow, NamesOk, NamesOkTy, Flds.names, fresh], by decide +kernel, by decide +kernel⟩

/-- **C113, refuted for overwrites with column mapping.** A column of a table with column mapping is
widened from `int` to `bigint`; then the table is overwritten with a schema in which the column is a
string. The old record of type changes stays, its last change does not lead to the present type, and
the table cannot be opened any more. -/
theorem C113_stale_record_refuted :
    ∃ (t : Table) (s : Flds) (cand : Flds), Sound t ∧
      addWidening t.schema (.cons (fresh "a") (.prim .long) .nil) = some s ∧ validate s = true ∧
      cand = .cons (fresh "a") (.prim .string) .nil ∧
      plain (evolve { t with schema := s } cand).schema = plain cand ∧
      validate (evolve { t with schema := s } cand).schema = false := by
  refine ⟨create (.cons (fresh "a") (.prim .integer) .nil) 0,
    .cons { fresh "a" with id := some 1, phys := some 0, changes := some [{ from_ := .integer, to_ := .long, path := [] }] }
      (.prim .long) .nil, _, ?_, ?_, ?_, rfl, ?_, ?_⟩
  · exact (C112_create (by simp [NamesOk, NamesOkTy, Flds.names]) 0).2.1
  all_goals decide +kernel

end Verif.Delta.Schema
