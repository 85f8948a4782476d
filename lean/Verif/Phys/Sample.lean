/-!
# sample, randomSplit and sampleBy

Models crates/sail-plan/src/resolver/query/sample.rs (`sa`), stat.rs (`st`), and the generation of random numbers in
crates/sail-function/src/scalar/math/random.rs (`ra`) and rand_poisson.rs (`rp`).

Simplifications. A draw is a multiple of `1 / one` (with `one` 2 to the power of 53), so that comparing it with a bound is
the same as comparing whole numbers; bounds and fractions are given on this scale. The seed is the sequence of its
draws. The partitions, batches and the order in them are given: for `randomSplit` they have been sorted (sa:86-130) and are
the same for each part.
-/

namespace Verif.Phys.Sample

/-- The scale of the draws, and `SAMPLE_ROUNDING_EPSILON`, sa:20. -/
structure Scale where
  one : Int
  epsilon : Int

variable {α κ : Type}

/-- The checks of `apply_sample_to_plan` without replacement, sa:152-189. -/
def checked (S : Scale) (lower upper : Int) : Bool :=
  (decide (-S.epsilon ≤ upper - lower) && decide (upper - lower ≤ S.one + S.epsilon))
    && !(decide (lower > upper + S.epsilon) || decide (lower < -S.epsilon) || decide (upper > S.one + S.epsilon))

/-- The rows of a batch with their draws: `Random` starts again with the seed in each batch, ra:69-72. -/
def draws (draw : Nat → Int) (batch : List α) : List (α × Int) := batch.zipIdx.map fun p => (p.1, draw p.2)

/-- The two filters of `resolve_sample_without_replacement`, sa:246-261. -/
def sampleBatch (draw : Nat → Int) (lower upper : Int) (batch : List α) : List α :=
  (((draws draw batch).filter fun p => decide (p.2 < upper)).filter fun p => decide (p.2 ≥ lower)).map Prod.fst

/-- `sample` without replacement; `none` is an error. -/
def sample (S : Scale) (draw : Nat → Int) (lower upper : Int) (partitions : List (List (List α))) :
    Option (List (List (List α))) :=
  if checked S lower upper then some (partitions.map fun p => p.map (sampleBatch draw lower upper)) else none

/-- A batch of `resolve_sample_with_replacement`, sa:264-300: each row as often as its draw says; the draws start again
in each batch, rp:106-111. -/
def replaceBatch (copies : Nat → Nat) (batch : List α) : List α :=
  batch.zipIdx.flatMap fun p => (List.replicate (copies p.2) 1).map fun _ => p.1

/-- `sampleBy`, st:516-594, for a batch; the key of a row may be NULL. -/
def sampleByBatch [DecidableEq κ] (draw : Nat → Int) (key : α → Option κ) (fractions : List (κ × Int)) (batch : List α) :
    List α :=
  ((draws draw batch).filter fun p => fractions.any fun f => decide (key p.1 = some f.1) && decide (p.2 ≤ f.2)).map Prod.fst

/-- `sampleBy` with the check of the fractions, st:524-531. -/
def sampleBy [DecidableEq κ] (S : Scale) (draw : Nat → Int) (key : α → Option κ) (fractions : List (κ × Int))
    (partitions : List (List (List α))) : Option (List (List (List α))) :=
  if fractions.any fun f => decide (f.2 < 0) || decide (f.2 > S.one) then none
  else some (partitions.map fun p => p.map (sampleByBatch draw key fractions))

end Verif.Phys.Sample
