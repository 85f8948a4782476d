import Verif.Func.Counts
/-!
# `mode`

The most frequent value.  The strict order `lt` of the values is a parameter: for integers, dates and
strings it is total; for floats it is not (NaN).
-/
namespace Verif.Func.Mode

open Counts

inductive TieBreak where
  | any | lowest | highest
deriving Repr, DecidableEq

inductive Err where
  | notConstant | invalid | notBoolean
deriving Repr, DecidableEq

/-- The literal given as second argument of `mode`. -/
inductive Literal where
  | bool (b : Option Bool)
  | string (s : Option String)
  | other
deriving Repr, DecidableEq

/-- `resolve_tie_break`: `crates/sail-function/src/aggregate/mode.rs` 215-237.  `none` is an absent
argument, `some none` one that is not constant. -/
def resolveTieBreak : Option (Option Literal) → Except Err TieBreak
  | none => .ok .any
  | some none => .error .notConstant
  | some (some (.bool (some false))) => .ok .any
  | some (some (.bool (some true))) => .ok .lowest
  | some (some (.string (some "lowest"))) => .ok .lowest
  | some (some (.string (some "highest"))) => .ok .highest
  | some (some (.string (some _))) => .error .invalid
  | some (some _) => .error .notBoolean

variable {α : Type} [DecidableEq α]

/-- The state as it is sent: a list of values and a list of frequencies. -/
abbrev State (α : Type) := List α × List Nat

/-- `update_batch`: `crates/sail-function/src/aggregate/mode.rs` 270-282 (406-416 and 531-543 do the
same for floats and strings); NULLs are skipped. -/
def update (m : List (α × Nat)) (rows : List (Option α)) : List (α × Nat) :=
  rows.foldl (fun m r => match r with | some v => bump m v 1 | none => m) m

/-- `state`: `crates/sail-function/src/aggregate/mode.rs` 324-344. -/
def state (m : List (α × Nat)) : State α := (m.map Prod.fst, m.map Prod.snd)

/-- `merge_batch` for one state: `crates/sail-function/src/aggregate/mode.rs` 354-369.  The two lists
have the same length. -/
def mergeOne (m : List (α × Nat)) : Option (State α) → List (α × Nat)
  | none => m
  | some s => (s.1.zip s.2).foldl (fun m e => bump m e.1 e.2) m

/-- The closure of the loop of `evaluate`: `crates/sail-function/src/aggregate/mode.rs` 288-312. -/
def step (tb : TieBreak) (lt : α → α → Bool) (acc : Option α × Nat) (e : α × Nat) : Option α × Nat :=
  if e.2 > acc.2 then (some e.1, e.2)
  else if e.2 = acc.2 then
    (match acc.1 with
      | some cur =>
        if tb = .lowest ∧ lt e.1 cur = true then some e.1
        else if tb ≠ .lowest ∧ lt cur e.1 = true then some e.1
        else some cur
      | none => some e.1, acc.2)
  else acc

/-- `evaluate` for integers, dates, times and floats: `crates/sail-function/src/aggregate/mode.rs`
284-318, 418-454. -/
def evaluate (tb : TieBreak) (lt : α → α → Bool) (m : List (α × Nat)) : Option α :=
  (m.foldl (step tb lt) (none, 0)).1

/-- The comparison of `evaluate` for strings: `crates/sail-function/src/aggregate/mode.rs` 577-584;
true when the first is greater. -/
def greater (tb : TieBreak) (lt : α → α → Bool) (a b : α × Nat) : Bool :=
  if a.2 = b.2 then (match tb with | .highest => lt b.1 a.1 | _ => lt a.1 b.1)
  else decide (b.2 < a.2)

/-- `evaluate` for strings: `crates/sail-function/src/aggregate/mode.rs` 566-597.
`Iterator::max_by` keeps the later one of equal elements. -/
def evaluateString (tb : TieBreak) (lt : α → α → Bool) : List (α × Nat) → Option α
  | [] => none
  | e :: m => some (m.foldl (fun acc x => if greater tb lt acc x then acc else x) e).1

/-- `PrimitiveModeAccumulator` and `FloatModeAccumulator`:
`crates/sail-function/src/aggregate/mode.rs` 240-512. -/
def mode (tb : TieBreak) (lt : α → α → Bool) :
    Accumulator Err (List (α × Nat)) (Option α) (State α) (Option α) where
  init := []
  update m rows := .ok (update m rows)
  state := state
  merge m states := .ok (states.foldl mergeOne m)
  eval := evaluate tb lt
  alike m m' := m.Perm m'

/-- `BytesModeAccumulator`: `crates/sail-function/src/aggregate/mode.rs` 515-653.  (Only for `Utf8`
and `Utf8View`: for `LargeUtf8` line 558 panics.) -/
def modeString (tb : TieBreak) (lt : α → α → Bool) :
    Accumulator Err (List (α × Nat)) (Option α) (State α) (Option α) where
  init := []
  update m rows := .ok (update m rows)
  state := state
  merge m states := .ok (states.foldl mergeOne m)
  eval := evaluateString tb lt
  alike m m' := m.Perm m'

end Verif.Func.Mode
