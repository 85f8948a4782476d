import Verif.Func.ListArray
/-!
# Time windows

`window(ts, length, slide, start)`: the checks made when the query is planned and the enumeration
of the windows of every row.  Times and durations are microseconds; 64-bit integers are modelled by
unbounded integers (`C69_no_overflow` states when no intermediate value leaves 64 bits).
-/
namespace Verif.Func.Window

inductive Err where
  | length | slide | slideTooLong | start | tooMany
deriving Repr, DecidableEq

structure WindowSpec where
  window : Int
  slide : Int
  start : Int
deriving Repr, DecidableEq

/-- `n` of `crates/sail-function/src/scalar/datetime/spark_window_buckets.rs` 96 and `overlapping`
of `crates/sail-plan/src/function/scalar/datetime.rs` 1152.  Rust's `/` truncates; both operands
are positive wherever it is used. -/
def overlapping (window slide : Int) : Int := (window + slide - 1).tdiv slide

/-- `crates/sail-plan/src/function/scalar/datetime.rs` 1116-1163 (`parse_window_spec`).  The
literals are given as microseconds already (1067-1101 are not modelled). -/
def parseSpec (window : Int) (slide start : Option Int) : Except Err WindowSpec :=
  let s := slide.getD window
  let st := start.getD 0
  if window ≤ 0 then .error .length
  else if s ≤ 0 then .error .slide
  else if s > window then .error .slideTooLong
  else if st ≥ s ∨ st ≤ -s then .error .start
  else if overlapping window s > 1000000 then .error .tooMany
  else .ok ⟨window, s, st⟩

/-- The loop over the candidates of one row:
`crates/sail-function/src/scalar/datetime/spark_window_buckets.rs` 104-114. -/
def rowWindows (w : WindowSpec) (ts : Int) : List (Int × Int) :=
  let offset := (ts - w.start).emod w.slide
  let lastStart := ts - offset
  (List.range (overlapping w.window w.slide).toNat).foldl
    (fun acc (j : Nat) =>
      let ws := lastStart - (j : Int) * w.slide
      let we := ws + w.window
      if ws ≤ ts ∧ ts < we then acc ++ [(ws, we)] else acc) []

/-- The loop over the rows of a batch:
`crates/sail-function/src/scalar/datetime/spark_window_buckets.rs` 97-117; `none` is NULL. -/
def windowBuckets (w : WindowSpec) (times : List (Option Int)) : ListArr (Int × Int) :=
  times.foldl (fun a t =>
    match t with
    | some ts => a.pushRow (rowWindows w ts)
    | none => a.pushRow []) .empty

/-- `explode` of the list column, keeping the position of the row each window came from:
`crates/sail-plan/src/function/scalar/datetime.rs` 1209 together with the unnesting of list
columns; a row with an empty list disappears. -/
def exploded (a : ListArr (Int × Int)) (n : Nat) : List (Nat × Int × Int) :=
  (List.range n).flatMap fun i =>
    match a.row i with
    | some (some l) => l.map fun p => (i, p)
    | _ => []

/-- `window_time`: `crates/sail-plan/src/function/scalar/datetime.rs` 1239-1242. -/
def windowTime (p : Int × Int) : Int := p.2 - 1

end Verif.Func.Window
