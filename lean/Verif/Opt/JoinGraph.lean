import Verif.Opt.JoinPlan

/-! # The query graph and its construction from a plan

Source: `crates/sail-physical-optimizer/src/join_reorder/{join_set,graph,builder}.rs`.

A column is named by the relation it belongs to and its position there (`StableColumn`, graph.rs:13-60; the text
form `R{rel}.C{col}` that carries it inside expressions is the subject of `StableName.lean`).
`ColumnMapEntry::Expression` is not modelled: it is only created for projections with computed expressions, which
`visit_plan` treats as boundaries (builder.rs:124-147). Every edge comes from an inner join (builder.rs:106-121),
so `join_type`, `is_join_pair_legal` (always true then), `can_swap_physical_order` (likewise) and
`join_type_for_edges` are left out. Statistics are left out: they only feed the estimates, which are arbitrary here.
An error of the rule makes it keep the plan (mod.rs:181-195), so all errors are alike, except that running out of
the fuel of this model is told apart. -/

namespace Verif.Opt

/-- join_set.rs:12 -/
abbrev JoinSet := BitVec 64

/-- Why a function of the rule gave up. -/
inductive Err where
  | internal
  | fuel
  deriving DecidableEq

namespace JoinSet

/-- join_set.rs:21-29 -/
def singleton (i : Nat) : Except Err JoinSet := if i ≥ 64 then .error .internal else .ok (1#64 <<< i)

/-- join_set.rs:49-51 -/
def isSubset (a b : JoinSet) : Bool := a &&& b == a

/-- join_set.rs:54-56 -/
def isDisjoint (a b : JoinSet) : Bool := a &&& b == 0#64

/-- The iterator of join_set.rs:158-173: positions of the bits that are set, ascending. -/
def elems (a : JoinSet) : List Nat := (List.range 64).filter fun i => a.getLsbD i

/-- join_set.rs:79-81 -/
def cardinality (a : JoinSet) : Nat := a.elems.length

/-- join_set.rs:195-208 -/
def fromIter : List Nat → Except Err JoinSet
  | [] => .ok 0#64
  | i :: is => if i ≥ 64 then .error .internal else match fromIter is with
    | .ok s => .ok (s ||| 1#64 <<< i)
    | .error e => .error e

/-- `1u64 << relation` with the wrapping shift of release builds (builder.rs:397, :432). -/
def bit (i : Nat) : JoinSet := 1#64 <<< (i % 64)

/-- The relations of some columns (builder.rs:478-484, :385-427). -/
def ofCols (cs : List (Nat × Nat)) : JoinSet := cs.foldr (fun c s => s ||| bit c.1) 0#64

end JoinSet

open JoinSet

/-- A column of a base relation. -/
abbrev Col := Nat × Nat

/-- graph.rs:99-117 -/
structure Edge (α : Type) where
  joinSet : JoinSet
  left : JoinSet
  right : JoinSet
  filter : Expr α Col
  nullEq : Bool
  pairs : List (Col × Col)

/-- graph.rs:141-147 without the neighbour cache (a memo of a function of the edges, cleared when one is added). -/
structure Graph (α : Type) where
  relations : List (Plan α)
  edges : List (Edge α)

def Graph.empty {α : Type} : Graph α := ⟨[], []⟩

/-- A conjunct with the key pair it came from, if it is a join key (builder.rs:25). -/
abbrev Pred (α : Type) := Expr α Col × List (Col × Col)

/-- The predicates of one edge under construction: `GroupedPredicates` (builder.rs:26). -/
abbrev Group (α : Type) := (JoinSet × JoinSet) × List (Pred α)

/-- What the rule is run with. `order` is the order in which the hash map of groups is drained. -/
structure Options (α : Type) where
  maxRelations : Nat
  emitThreshold : Nat
  order : List (Group α) → List (Group α)

section builder

variable {α : Type}

/-- builder.rs:906-934 -/
def resolveKey (m : List Col) : Scalar α → Except Err Col
  | .col i => match m[i]? with
    | some c => .ok c
    | none => .error .internal
  | .other _ => .error .internal

/-- The conjuncts of the `on` clause (builder.rs:187-213). -/
def onConjuncts (lm rm : List Col) : List (Scalar α × Scalar α) → Except Err (List (Pred α))
  | [] => .ok []
  | (l, r) :: ks => match resolveKey lm l, resolveKey rm r with
    | .ok a, .ok b => match onConjuncts lm rm ks with
      | .ok ps => .ok ((.eq a b, [(a, b)]) :: ps)
      | .error e => .error e
    | _, _ => .error .internal

/-- The column a filter position stands for (builder.rs:532-556). A position without a column leaves the expression
unchanged in the code; that cannot happen in a valid plan and is an error here. -/
def stableOf (f : JoinFilter α) (lm rm : List Col) (k : Nat) : Option Col :=
  match f.indices[k]? with
  | some (.left, i) => lm[i]?
  | some (.right, i) => rm[i]?
  | none => none

/-- The conjuncts of the join filter (builder.rs:215-229, :510-562). -/
def filterConjuncts (lm rm : List Col) : Option (JoinFilter α) → Except Err (List (Pred α))
  | none => .ok []
  | some f => match f.expr.mapM (stableOf f lm rm) with
    | some e => .ok (e.conjuncts.map fun c => (c, []))
    | none => .error .internal

/-- The end points of the edge a predicate goes to (builder.rs:241-270). -/
def endpoints (lm rm : List Col) (p : Expr α Col) : Except Err (JoinSet × JoinSet) :=
  let lrel := ofCols lm
  let rrel := ofCols rm
  let deps := ofCols p.cols
  let deps := if deps.cardinality < 2 then lrel ||| rrel else deps
  let le := deps &&& lrel
  let re := deps &&& rrel
  let (le, re) := if le == 0#64 || re == 0#64 then ((lrel ||| rrel) &&& lrel, (lrel ||| rrel) &&& rrel) else (le, re)
  if le == 0#64 || re == 0#64 then .error .internal else .ok (le, re)

/-- `grouped.entry(key).or_default().push(pred)` (builder.rs:272-275). -/
def insertGroup (k : JoinSet × JoinSet) (p : Pred α) : List (Group α) → List (Group α)
  | [] => [(k, [p])]
  | g :: gs => if g.1 = k then (k, g.2 ++ [p]) :: gs else g :: insertGroup k p gs

/-- builder.rs:239-275 -/
def groupAll (lm rm : List Col) : List (Pred α) → List (Group α) → Except Err (List (Group α))
  | [], gs => .ok gs
  | p :: ps, gs => match endpoints lm rm p.1 with
    | .ok k => groupAll lm rm ps (insertGroup k p gs)
    | .error e => .error e

/-- builder.rs:486-504 -/
def combine : List (Pred α) → Except Err (Pred α)
  | [] => .error .internal
  | p :: ps => .ok (ps.foldl (fun acc q => (.and acc.1 q.1, acc.2 ++ q.2)) p)

/-- builder.rs:287-298 -/
def addEdges (nullEq : Bool) : List (Group α) → List (Edge α) → Except Err (List (Edge α))
  | [], es => .ok es
  | ((le, re), ps) :: gs, es => match combine ps with
    | .ok (f, prs) => addEdges nullEq gs (es ++ [⟨le ||| re, le, re, f, nullEq, prs⟩])
    | .error e => .error e

/-- The embedded projection applied to a column map (builder.rs:301-318). -/
def projectMap (m : List Col) : Option (List Nat) → Except Err (List Col)
  | none => .ok m
  | some is => match is.mapM (fun i => m[i]?) with
    | some m => .ok m
    | none => .error .internal

/-- builder.rs:361-377 -/
def isTrivial (es : List (Scalar α)) (input : Plan α) : Bool :=
  !es.isEmpty && es.all fun e => match e with
    | .col i => decide (i < input.width)
    | .other _ => false

/-- builder.rs:564-592 (plain columns only: see the note above). -/
def projectExprs (m : List Col) : List (Scalar α) → Except Err (List Col)
  | [] => .ok []
  | .col i :: es => match m[i]?, projectExprs m es with
    | some c, .ok cs => .ok (c :: cs)
    | _, _ => .error .internal
  | .other _ :: _ => .error .internal

/-- builder.rs:594-688 -/
def addRelation (o : Options α) (p : Plan α) (g : Graph α) : Except Err (Graph α × List Col) :=
  if g.relations.length ≥ o.maxRelations then .error .internal
  else .ok (⟨g.relations ++ [p], g.edges⟩, (List.range p.width).map fun i => (g.relations.length, i))

/-- builder.rs:102-164 with `visit_hash_join` (:171-310) and `visit_projection` (:564-592). -/
def visit (o : Options α) : Plan α → Graph α → Except Err (Graph α × List Col)
  | .hashJoin l r on f pj ne, g =>
    match visit o l g with
    | .error e => .error e
    | .ok (g₁, lm) => match visit o r g₁ with
      | .error e => .error e
      | .ok (g₂, rm) => match onConjuncts lm rm on, filterConjuncts lm rm f with
        | .ok cs, .ok fs => match groupAll lm rm (cs ++ fs) [] with
          | .error e => .error e
          | .ok gs => match addEdges ne (o.order gs) g₂.edges, projectMap (lm ++ rm) pj with
            | .ok es, .ok m => .ok (⟨g₂.relations, es⟩, m)
            | _, _ => .error .internal
        | _, _ => .error .internal
  | .proj es p, g =>
    if isTrivial es p then
      if g.relations.length ≥ o.maxRelations then addRelation o (.proj es p) g
      else match visit o p g with
        | .error e => .error e
        | .ok (g₁, m) => match projectExprs m es with
          | .ok m' => .ok (g₁, m')
          | .error e => .error e
    else addRelation o (.proj es p) g
  | .unary agg w f p, g => if agg then .error .internal else addRelation o (.unary agg w f p) g
  | p, g => addRelation o p g

end builder

section graph

variable {α : Type}

/-- graph.rs:175-188 -/
def candidates (edges : List (Edge α)) (nodes : JoinSet) : List JoinSet :=
  edges.flatMap fun e =>
    (if isSubset e.left nodes && !(e.right == 0#64) && isDisjoint e.right nodes then [e.right] else []) ++
    (if isSubset e.right nodes && !(e.left == 0#64) && isDisjoint e.left nodes then [e.left] else [])

/-- `Vec::dedup`. -/
def dedup : List JoinSet → List JoinSet
  | a :: b :: l => if a = b then dedup (b :: l) else a :: dedup (b :: l)
  | l => l

/-- The loop of graph.rs:213-219. -/
def minimal : List JoinSet → List JoinSet → List JoinSet
  | [], res => res
  | c :: cs, res => if res.any fun e => isSubset e c then minimal cs res else minimal cs (res ++ [c])

/-- graph.rs:205-222 -/
def minimize (cs : List JoinSet) : List JoinSet :=
  (minimal (dedup (cs.insSort fun a b => decide (a.cardinality < b.cardinality) ||
    (a.cardinality == b.cardinality && decide (a.toNat ≤ b.toNat)))) []).insSort fun a b => decide (a.toNat ≤ b.toNat)

/-- graph.rs:169-203 -/
def neighbors (g : Graph α) (nodes forbidden : JoinSet) : List JoinSet :=
  (minimize (candidates g.edges nodes)).filter fun n => isDisjoint n forbidden

/-- Whether an edge becomes applicable at the join of two sets (graph.rs:241-244). -/
def connects (left right : JoinSet) (e : Edge α) : Bool :=
  isSubset e.joinSet (left ||| right) && (!isSubset e.joinSet left && !isSubset e.joinSet right)

/-- graph.rs:225-247 -/
def connecting (g : Graph α) (left right : JoinSet) : List Nat :=
  if !isDisjoint left right then []
  else (g.edges.zipIdx.filter fun e => connects left right e.1).map Prod.snd

end graph

end Verif.Opt
