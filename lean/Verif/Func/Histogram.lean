import Verif.Func.Accumulator
import Verif.Base.Sort
/-!
# `histogram_numeric`

An approximate histogram with a bounded number of bins.  Doubles are modelled as rationals: finite
values, no rounding.
-/
namespace Verif.Func.Histogram

/-- `Coord`: a bin with its centre and height
(`crates/sail-function/src/aggregate/histogram_numeric.rs` 20-28). -/
structure Bin where
  x : Rat
  y : Rat
deriving DecidableEq, Repr

/-- `NumericHistogram` (`histogram_numeric.rs` 44-49).  `R` is the state of the random generator. -/
structure Hist (R : Type) where
  nbins : Nat
  bins : List Bin
  rng : R
deriving DecidableEq, Repr

variable {R : Type}

/-- The distances between neighbouring centres, `bins[i + 1].x - bins[i].x`
(`histogram_numeric.rs` 97, 102). -/
def gaps : List Bin → List Rat
  | a :: b :: t => (b.x - a.x) :: gaps (b :: t)
  | _ => []

/-- The search for the smallest distance from the second one on (`histogram_numeric.rs` 101-113):
`best` is the smallest so far, `loc` its place, `count` the number of equal ones; an equal one takes
over when the next random number is at most `1 / count`. -/
def scan (next : R → Rat × R) : List Rat → Nat → Rat → Nat → Nat → R → Nat × R
  | [], _, _, loc, _, r => (loc, r)
  | d :: ds, i, best, loc, count, r =>
    if d < best then scan next ds (i + 1) d i 1 r
    else if d = best then
      if (next r).1 ≤ 1 / ((count + 1 : Nat) : Rat) then
        scan next ds (i + 1) best i (count + 1) (next r).2
      else scan next ds (i + 1) best loc (count + 1) (next r).2
    else scan next ds (i + 1) best loc count r

/-- Joining the bin at a place with its right neighbour (`histogram_numeric.rs` 115-120). -/
def fuse : Nat → List Bin → List Bin
  | 0, a :: b :: t => ⟨a.x * a.y / (a.y + b.y) + b.x * b.y / (a.y + b.y), a.y + b.y⟩ :: t
  | i + 1, a :: t => a :: fuse i t
  | _, l => l

/-- One turn of the loop of `trim` (`histogram_numeric.rs` 97-120). -/
def trimOnce (next : R → Rat × R) (h : Hist R) : Hist R :=
  match gaps h.bins with
  | [] => h
  | d :: ds =>
    let (loc, r) := scan next ds 1 d 0 1 h.rng
    { h with bins := fuse loc h.bins, rng := r }

/-- `trim` (`histogram_numeric.rs` 95-122).  Every turn removes a bin, so as many turns as there are
bins suffice (`fuel`). -/
def trimLoop (next : R → Rat × R) : Nat → Hist R → Hist R
  | 0, h => h
  | fuel + 1, h =>
    if h.nbins < h.bins.length ∧ 2 ≤ h.bins.length then trimLoop next fuel (trimOnce next h) else h

def trim (next : R → Rat × R) (h : Hist R) : Hist R := trimLoop next h.bins.length h

/-- The search and the update of the bins in `add` (`histogram_numeric.rs` 65-73); the flag says
that a bin was inserted.  The binary search is modelled by its result: an equal centre if there is
one, otherwise the place that keeps the centres sorted.  (Equal centres in several bins arise only
from `merge`; the search may then find any of them, here the first.) -/
def place (v : Rat) : List Bin → List Bin × Bool
  | [] => ([⟨v, 1⟩], true)
  | a :: t =>
    if a.x = v then (⟨a.x, a.y + 1⟩ :: t, false)
    else if v < a.x then (⟨v, 1⟩ :: a :: t, true)
    else ((a :: (place v t).1), (place v t).2)

/-- `add` (`histogram_numeric.rs` 64-77). -/
def add (next : R → Rat × R) (h : Hist R) (v : Rat) : Hist R :=
  let h' := { h with bins := (place v h.bins).1 }
  if (place v h.bins).2 ∧ h'.nbins < h'.bins.length then trim next h' else h'

/-- One row of `update_batch` (`histogram_numeric.rs` 254-268); NULLs are skipped. -/
def addRow (next : R → Rat × R) (h : Hist R) : Option Rat → Hist R
  | none => h
  | some v => add next h v

/-- The order in which `merge` sorts the bins (`histogram_numeric.rs` 35-39). -/
def binLe (a b : Bin) : Bool := decide (a.x ≤ b.x)

/-- `merge` (`histogram_numeric.rs` 79-93). -/
def merge (next : R → Rat × R) (h : Hist R) (nbins : Nat) (bins : List Bin) : Hist R :=
  if bins.isEmpty then h
  else if h.bins.isEmpty then { h with nbins := nbins, bins := bins }
  else trim next { h with bins := (h.bins ++ bins).insSort binLe }

/-- A state (`histogram_numeric.rs` 321-350).  Simplification: that `nbins` must fit 32 bits, else
an error, is left out. -/
structure Sent where
  xs : List Rat
  ys : List Rat
  nbins : Nat
deriving DecidableEq, Repr

/-- `state` (`histogram_numeric.rs` 321-350). -/
def send (h : Hist R) : Sent := ⟨h.bins.map Bin.x, h.bins.map Bin.y, h.nbins⟩

/-- The bins of a state received (`histogram_numeric.rs` 393-399). -/
def received (s : Sent) : List Bin := List.zipWith Bin.mk s.xs s.ys

/-- The error of `merge_batch` (`histogram_numeric.rs` 377-381). -/
inductive Err where
  | nbins
deriving DecidableEq, Repr

/-- One state of `merge_batch` (`histogram_numeric.rs` 369-402). -/
def mergeOne (next : R → Rat × R) (h : Hist R) : Option Sent → Except Err (Hist R)
  | none => .ok h
  | some s => if s.nbins = 0 then .error .nbins else .ok (merge next h s.nbins (received s))

/-- `evaluate` (`histogram_numeric.rs` 270-315): NULL without bins.  Simplification: the cast of the
centres back to the type of the input is left out. -/
def eval (h : Hist R) : Option (List Bin) := if h.bins.isEmpty then none else some h.bins

/-- `histogram_numeric` (`histogram_numeric.rs` 252-404). -/
def agg (next : R → Rat × R) (seed : R) (nbins : Nat) :
    Accumulator Err (Hist R) (Option Rat) Sent (Option (List Bin)) where
  init := ⟨nbins, [], seed⟩
  update := fun h b => .ok (b.foldl (addRow next) h)
  state := send
  merge := fun h b => b.foldlM (mergeOne next) h
  eval := eval

end Verif.Func.Histogram
