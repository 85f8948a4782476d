import Verif.Merge.Model

/-! # What a MERGE statement means

Row by row, without joins, CASE expressions or files. -/

namespace Verif.Merge.Spec

open Verif.Opt (Row)

variable {α : Type} [DecidableEq α]

/-- The action of the first clause that has no condition or whose condition is true. -/
def pick {C A : Type} (holds : C → Option Bool) (cs : List (Clause C A)) : Option A :=
  (cs.find? (fun c => match c.cond with
    | none => true
    | some p => holds p == some true)).map (·.action)

/-- The row made of one value for each target column. -/
def build (o : Options α) (f : Name → Nat → Option α) : Row α := o.target.zipIdx.map (fun ci => f ci.1 ci.2)

/-- The row with its generated columns computed. -/
def generated (o : Options α) (r : Row α) : Row α :=
  build o (fun c i => match o.gens.find? (fun g => g.1 == c) with
    | some g => g.2 r
    | none => r.at i)

/-- The value of the source column called `c`. -/
def sourceValue (o : Options α) (s : Row α) (c : Name) : Option (Option α) :=
  ((o.source.zip s).find? (fun p => namesEqual o.caseSensitive p.1 c)).map (·.2)

/-- The default of column `c`, or NULL. -/
def default (o : Options α) (c : Name) : Option α :=
  ((o.defaults.find? (fun d => namesEqual o.caseSensitive d.1 c)).map (·.2)).join

/-- What happens to a row of the target. -/
inductive Fate (α : Type) where
  | keep
  | delete
  | update (r : Row α)
  deriving DecidableEq

/-- The target row `t` under an action for the match with `s`, before generated columns. -/
def matchedFate (o : Options α) (t s : Row α) : Option (MatchedAction α) → Fate α
  | none => .keep
  | some .delete => .delete
  | some .updateAll => .update (build o (fun c i => match sourceValue o s c with
      | some v => o.cast c v
      | none => t.at i))
  | some (.updateSet as) => .update (build o (fun c i =>
      match as.find? (fun a => namesEqual o.caseSensitive a.1 c) with
      | some a => o.cast c (a.2 t s)
      | none => t.at i))

/-- The target row `t` under an action for rows without a match, before generated columns. -/
def bySourceFate (o : Options α) (t : Row α) : Option (BySourceAction α) → Fate α
  | none => .keep
  | some .delete => .delete
  | some (.updateSet as) => .update (build o (fun c i =>
      match as.find? (fun a => namesEqual o.caseSensitive a.1 c) with
      | some a => o.cast c (a.2 t)
      | none => t.at i))

/-- The source rows that match a target row: the ON condition is true. -/
def matchesOf (o : Options α) (S : List (Row α)) (t : Row α) : List (Row α) :=
  S.filter (fun s => o.on.eval t s == some true)

/-- What the statement does to a target row. If several source rows match, it speaks of the first; the theorems that
use this say why the choice does not matter. -/
def fate (o : Options α) (S : List (Row α)) (t : Row α) : Fate α :=
  match matchesOf o S t with
  | [] => bySourceFate o t (pick (fun p => p t) o.bySource)
  | s :: _ => matchedFate o t s (pick (fun p => p t s) o.matched)

/-- The row that takes the place of a target row. -/
def replacement (o : Options α) (S : List (Row α)) (t : Row α) : Option (Row α) :=
  match fate o S t with
  | .keep => some t
  | .delete => none
  | .update r => some (generated o r)

/-- The values of a row inserted by an action, before generated columns. -/
def insertValues (o : Options α) (s : Row α) : InsertAction α → Row α
  | .insertAll => build o (fun c _ => o.cast c ((sourceValue o s c).getD (default o c)))
  | .insertColumns cols => build o (fun c _ =>
      o.cast c (match cols.find? (fun p => namesEqual o.caseSensitive p.1 c) with
        | some p => p.2 s
        | none => default o c))

/-- The row inserted for a source row without a match. -/
def inserted (o : Options α) (s : Row α) : Option (Row α) :=
  (pick (fun p => p s) o.inserts).map (fun a => generated o (insertValues o s a))

/-- The source rows that match no target row. -/
def unmatched (o : Options α) (T : List (TRow α)) (S : List (Row α)) : List (Row α) :=
  S.filter (fun s => T.all (fun t => o.on.eval t.vals s != some true))

/-- The table after the statement. -/
def result (o : Options α) (T : List (TRow α)) (S : List (Row α)) : List (Row α) :=
  T.filterMap (fun t => replacement o S t.vals) ++ (unmatched o T S).filterMap (inserted o)

/-- The statement is well formed: the names of the target columns differ, assigned columns exist, and a column is
generated by at most one expression. -/
structure Valid (o : Options α) : Prop where
  names : o.target.Pairwise (fun a b => namesEqual o.caseSensitive a b = false)
  matchedCols : ∀ c ∈ o.matched, ∀ as, c.action = .updateSet as → ∀ a ∈ as, ∃ n ∈ o.target,
    namesEqual o.caseSensitive n a.1 = true
  bySourceCols : ∀ c ∈ o.bySource, ∀ as, c.action = .updateSet as → ∀ a ∈ as, ∃ n ∈ o.target,
    namesEqual o.caseSensitive n a.1 = true
  gens : (o.gens.map (·.1)).Nodup

/-- The stored table fits the statement: rows have the columns of the table, stored values are values of the type of
their column, generated columns hold their expression, and no two rows are at the same place. -/
structure Stored (o : Options α) (T : List (TRow α)) : Prop where
  width : ∀ t ∈ T, t.vals.length = o.target.length
  typed : ∀ t ∈ T, ∀ i c, o.target[i]? = some c → o.cast c (t.vals.at i) = t.vals.at i
  generated : ∀ t ∈ T, generated o t.vals = t.vals
  places : (T.map (fun t => (t.file, t.pos))).Nodup

/-- The rows of the source have the columns of the source. -/
def Sourced (o : Options α) (S : List (Row α)) : Prop := ∀ s ∈ S, s.length = o.source.length

/-- No target row matches two rows of the source. -/
def Single (o : Options α) (T : List (TRow α)) (S : List (Row α)) : Prop :=
  ∀ t ∈ T, (matchesOf o S t.vals).length ≤ 1

/-- The only MATCHED clause is an unconditional DELETE. -/
def LoneDelete (o : Options α) : Prop := o.matched = [⟨none, .delete⟩]

end Verif.Merge.Spec
