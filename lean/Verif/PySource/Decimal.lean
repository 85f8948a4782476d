import Verif.Delta.PartValue

/-!
# Decimals for row-based Python writers

`extract_decimal128_value` in `crates/sail-data-source/src/formats/python/arrow_utils.rs`. Texts,
`intText` (`{}` of an integer) and `padLeft` (`{:0>width$}`) are those of `Verif.Delta.PartValue`.
-/

namespace Verif.PySource.Decimal

open Verif.Delta.PartValue (Text intText padLeft)

/-- An `i128`; the release build does not check for overflow. -/
def wrap128 (i : Int) : Int := i.bmod (2 ^ 128)

/-- The text given to Python's `Decimal` (`arrow_utils.rs:346-392`). Division truncates. The scale -128,
for which the code reports an error, is left out. -/
def pyText (raw scale : Int) : Text :=
  if scale ≤ 0 then intText (wrap128 (raw * wrap128 (10 ^ (-scale).toNat)))
  else
    (if raw < 0 ∧ raw.tdiv (wrap128 (10 ^ scale.toNat)) = 0 then ['-'] else []) ++
      intText (raw.tdiv (wrap128 (10 ^ scale.toNat))) ++
      '.' :: padLeft scale.toNat (Nat.toDigits 10 (raw.tmod (wrap128 (10 ^ scale.toNat))).natAbs)

end Verif.PySource.Decimal
