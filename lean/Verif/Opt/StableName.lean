import Verif.Func.DigitsProps

/-! # Names of stable columns

Source: `crates/sail-physical-optimizer/src/join_reorder/graph.rs:22-41`. Text is a list of character codes. -/

namespace Verif.Opt

open Verif.Func.Digits

/-- `format!("R{}.C{}", relation_id, column_index)` (graph.rs:22-24). -/
def formatStable (rel col : Nat) : Text :=
  82 :: ((natDigits 10 rel).map digitChar ++ 46 :: 67 :: (natDigits 10 col).map digitChar)

/-- `str::parse::<usize>`: an optional plus sign, at least one decimal digit, and a value that fits in 64 bits. -/
def parseUsize (t : Text) : Option Nat :=
  let digits := match t with
    | 43 :: rest => rest
    | t => t
  if digits.isEmpty then none else match readDigits 10 digits 0 with
    | some n => if n < 2 ^ 64 then some n else none
    | none => none

/-- graph.rs:27-41 -/
def parseStable (t : Text) : Option (Nat × Nat) :=
  match t with
  | 82 :: rest => match rest.dropWhile (· != 46) with
    | 46 :: 67 :: colStr => match parseUsize (rest.takeWhile (· != 46)), parseUsize colStr with
      | some rel, some col => some (rel, col)
      | _, _ => none
    | _ => none
  | _ => none

end Verif.Opt
