import Verif.Opt.JoinEnum

/-! # Rebuilding the plan and the rule itself

Source: `crates/sail-physical-optimizer/src/join_reorder/{reconstructor,mod}.rs`.

Not modelled: the cache of rebuilt plans (a set of relations occurs once in a tree) and filters deferred to a later
join (`pending_filters`), an error here; `C76_no_deferred` shows that no predicate is deferred. The required columns
of a subtree are passed down instead of being kept in a map from sets of relations. Resolving a filter column by its
field name (reconstructor.rs:868-915) is left out: the name `R{rel}.C{col}` is found in the column maps first. -/

namespace Verif.Opt

open JoinSet

section rebuild

variable {α : Type} [DecidableEq α]

/-- reconstructor.rs:1256-1278 -/
def isPair (pairs : List (Col × Col)) (l r : Col) : Bool :=
  pairs.any fun p => (l == p.1 && r == p.2) || (l == p.2 && r == p.1)

/-- reconstructor.rs:1205-1253 -/
def nonEqui (pairs : List (Col × Col)) : Expr α Col → Option (Expr α Col)
  | .and l r => match nonEqui pairs l, nonEqui pairs r with
    | some l, some r => some (.and l r)
    | some e, none => some e
    | none, some e => some e
    | none, none => none
  | .eq l r => if isPair pairs l r then none else some (.eq l r)
  | .other cs f => some (.other cs f)

/-- reconstructor.rs:225-227 -/
def inSet (s : JoinSet) (rel : Nat) : Bool := s &&& bit rel != 0#64

/-- The columns an edge needs (reconstructor.rs:163-192). -/
def Edge.cols (e : Edge α) : List Col := e.pairs.flatMap (fun p => [p.1, p.2]) ++ e.filter.cols

/-- The columns required of one child (reconstructor.rs:154-192): those required above and those of the edges, where
a relation counts for the left child first. -/
def childReq (req : List Col) (edges : List (Edge α)) (keep : Nat → Bool) : List Col :=
  (req ++ edges.flatMap Edge.cols).filter fun c => keep c.1

/-- reconstructor.rs:256-293 -/
def keepCols (req : List Col) (m : List Col) : Option (List Nat) :=
  let keep := (m.zipIdx.filter fun e => e.1 ∈ req).map Prod.snd
  if keep.isEmpty then none else if keep.length < m.length then some keep else none

/-- `column_map[i]` for the kept positions. -/
def keepMap (keep : Option (List Nat)) (m : List Col) : List Col :=
  match keep with
  | none => m
  | some is => is.filterMap fun i => m[i]?

/-- reconstructor.rs:492-526 -/
def leafPlan (p : Plan α) (id : Nat) (req : List Col) : Plan α × List Col :=
  let m := (List.range p.width).map fun i => (id, i)
  match keepCols req m with
  | none => (p, m)
  | some is => (.proj (is.map Scalar.col) p, keepMap (some is) m)

/-- `find_physical_index` (mod.rs:472-480). -/
def findCol (c : Col) (m : List Col) : Option Nat := m.findIdx? (· == c)

/-- The join key of a pair, if it spans the two inputs (reconstructor.rs:667-697). -/
def keyOf (lm rm : List Col) (p : Col × Col) : Option (Scalar α × Scalar α) :=
  match findCol p.1 lm, findCol p.2 rm with
  | some i, some j => some (.col i, .col j)
  | _, _ => match findCol p.2 lm, findCol p.1 rm with
    | some i, some j => some (.col i, .col j)
    | _, _ => none

/-- reconstructor.rs:644-711 -/
def joinKeys (edges : List (Edge α)) (lm rm : List Col) : Except Err (List (Scalar α × Scalar α)) :=
  let pairs := edges.flatMap Edge.pairs
  let on := pairs.filterMap (keyOf lm rm)
  if on.isEmpty && !pairs.isEmpty then .error .internal else .ok on

/-- reconstructor.rs:723-744 -/
def nullEqOf : List (Edge α) → Option Bool → Except Err Bool
  | [], sel => .ok (sel.getD false)
  | e :: es, none => nullEqOf es (some e.nullEq)
  | e :: es, some b => if b = e.nullEq then nullEqOf es (some b) else .error .internal

/-- The predicates of an edge that are not join keys (reconstructor.rs:766-772). -/
def residual (e : Edge α) : List (Expr α Col) :=
  match nonEqui e.pairs e.filter with
  | none => []
  | some x => x.conjuncts

/-- reconstructor.rs:1332-1344 -/
def andAll : List (Expr α Col) → Option (Expr α Col)
  | [] => none
  | e :: es => some (es.foldl Expr.and e)

/-- reconstructor.rs:853-863 -/
def sideOf (lm rm : List Col) (c : Col) : Option (Side × Nat) :=
  match findCol c lm with
  | some i => some (.left, i)
  | none => match findCol c rm with
    | some i => some (.right, i)
    | none => none

/-- The compact column list in order of first appearance (reconstructor.rs:918-928). -/
def compact (lm rm : List Col) : List Col → List (Side × Nat) → List (Side × Nat)
  | [], seen => seen
  | c :: cs, seen => match sideOf lm rm c with
    | none => compact lm rm cs seen
    | some si => compact lm rm cs (if si ∈ seen then seen else seen ++ [si])

/-- reconstructor.rs:930-951 -/
def positionOf (lm rm : List Col) (indices : List (Side × Nat)) (c : Col) : Option Nat :=
  match sideOf lm rm c with
  | none => none
  | some si => indices.findIdx? (· == si)

/-- reconstructor.rs:747-968 -/
def joinFilter (edges : List (Edge α)) (lm rm : List Col) (set : JoinSet) : Except Err (Option (JoinFilter α)) :=
  let preds := edges.flatMap residual
  if preds.all fun p => isSubset (ofCols p.cols) set then
    match andAll preds with
    | none => .ok none
    | some e =>
      let indices := compact lm rm e.cols []
      match e.mapM (positionOf lm rm indices) with
      | some x => .ok (some ⟨x, indices⟩)
      | none => .error .internal
  else .error .internal

/-- The operator for a join (reconstructor.rs:578-640). -/
def joinNode (lp rp : Plan α) (on : List (Scalar α × Scalar α)) (f : Option (JoinFilter α)) (keep : Option (List Nat))
    (nullEq : Bool) : Plan α :=
  if on.isEmpty then
    match f with
    | some f => .loopJoin lp rp f keep
    | none => match keep with
      | some is => .proj (is.map Scalar.col) (.cross lp rp)
      | none => .cross lp rp
  else .hashJoin lp rp on f keep nullEq

/-- The edges with the given numbers. -/
def edgesAt (g : Graph α) : List Nat → Except Err (List (Edge α))
  | [] => .ok []
  | i :: is => match g.edges[i]?, edgesAt g is with
    | some e, .ok es => .ok (e :: es)
    | _, _ => .error .internal

/-- `reconstruct`, `reconstruct_leaf`, `reconstruct_join` (reconstructor.rs:435-641) together with
`populate_required_for_plan` (:135-199). `fuel` bounds the depth of the tree. -/
def rebuild {F : Type} (g : Graph α) (t : Table F) : Nat → DP F → List Col → Except Err (Plan α × List Col)
  | 0, _, _ => .error .fuel
  | k + 1, d, req => match d.kind with
    | .leaf id => match g.relations[id]? with
      | some p => .ok (leafPlan p id req)
      | none => .error .internal
    | .join l r es => match t.get l, t.get r, edgesAt g es with
      | some ld, some rd, .ok edges => match nullEqOf edges none with
        | .error e => .error e
        | .ok ne => match rebuild g t k ld (childReq req edges (inSet l)) with
          | .error e => .error e
          | .ok (lp, lm) =>
            match rebuild g t k rd (childReq req edges fun rel => !inSet l rel && inSet r rel) with
            | .error e => .error e
            | .ok (rp, rm) => match joinKeys edges lm rm, joinFilter edges lm rm (l ||| r) with
              | .ok on, .ok f =>
                let keep := keepCols req (lm ++ rm)
                .ok (joinNode lp rp on f keep ne, keepMap keep (lm ++ rm))
              | _, _ => .error .internal
      | _, _, _ => .error .internal

/-- What `validate_reconstruction_plan` has seen: uses of every edge and the sets visited. -/
structure Seen where
  uses : List Nat
  visited : List JoinSet

/-- reconstructor.rs:330-429: `uses` lists the edges in the order they are met. -/
def validate {F : Type} (g : Graph α) (t : Table F) : Nat → DP F → Seen → Except Err Seen
  | 0, _, _ => .error .fuel
  | k + 1, d, s =>
    if d.set ∈ s.visited then .error .internal
    else
      let s := { s with visited := d.set :: s.visited }
      match d.kind with
      | .leaf id => match singleton id with
        | .error e => .error e
        | .ok x => if d.set ≠ x then .error .internal
          else if (g.relations[id]?).isNone then .error .internal else .ok s
      | .join l r es =>
        if !isDisjoint l r then .error .internal
        else if l ||| r ≠ d.set then .error .internal
        else match edgesAt g es with
          | .error e => .error e
          | .ok edges =>
            if edges.all fun e => isSubset e.joinSet d.set && !isSubset e.joinSet l && !isSubset e.joinSet r then
              match t.get l, t.get r with
              | some ld, some rd => match validate g t k ld { s with uses := s.uses ++ es } with
                | .error e => .error e
                | .ok s => validate g t k rd s
              | _, _ => .error .internal
            else .error .internal

/-- reconstructor.rs:301-328 -/
def validateRoot {F : Type} (g : Graph α) (t : Table F) (fuel : Nat) (d : DP F) : Except Err Unit :=
  match fromIter (List.range g.relations.length) with
  | .error e => .error e
  | .ok all => if d.set ≠ all then .error .internal else match validate g t fuel d ⟨[], []⟩ with
    | .error e => .error e
    | .ok s => if (List.range g.edges.length).all fun i => s.uses.count i == 1 then .ok () else .error .internal

/-- mod.rs:304-394: the columns of the region's root, in their order. -/
def finalExprs (final : List Col) : List Col → Except Err (List (Scalar α))
  | [] => .ok []
  | c :: cs => match findCol c final, finalExprs final cs with
    | some i, .ok es => .ok (.col i :: es)
    | _, _ => .error .internal

/-- The depth that is enough for 64 relations. -/
def fuel : Nat := 65

/-- `try_optimize_region` (mod.rs:200-302); `Ok(None)` is an error here, since both keep the plan. -/
def region (o : Options α) (costs : Graph α → Costs) (p : Plan α) : Except Err (Plan α) :=
  match visit o p .empty with
  | .error e => .error e
  | .ok (g, target) =>
    if g.relations.length ≤ 2 then .error .internal
    else match solve g o.emitThreshold (costs g) fuel with
      | .error e => .error e
      | .ok (best, t) => match validateRoot g t fuel best with
        | .error e => .error e
        | .ok () => match rebuild g t fuel best target with
          | .error e => .error e
          | .ok (tree, final) => match finalExprs final target with
            | .ok es => .ok (.proj es tree)
            | .error e => .error e

/-- The new plan, or the old one. -/
def orKeep (p : Plan α) : Except Err (Plan α) → Plan α
  | .ok q => q
  | .error _ => p

/-- `find_and_optimize_regions` (mod.rs:160-196): children first. -/
def optimize (o : Options α) (costs : Graph α → Costs) : Plan α → Plan α
  | .scan w rs => orKeep (.scan w rs) (region o costs (.scan w rs))
  | .unary a w f p =>
    let p' := .unary a w f (optimize o costs p)
    orKeep p' (region o costs p')
  | .binary w f l r =>
    let p' := .binary w f (optimize o costs l) (optimize o costs r)
    orKeep p' (region o costs p')
  | .proj es p =>
    let p' := .proj es (optimize o costs p)
    orKeep p' (region o costs p')
  | .hashJoin l r on f pj ne =>
    let p' := .hashJoin (optimize o costs l) (optimize o costs r) on f pj ne
    orKeep p' (region o costs p')
  | .loopJoin l r f pj =>
    let p' := .loopJoin (optimize o costs l) (optimize o costs r) f pj
    orKeep p' (region o costs p')
  | .cross l r =>
    let p' := .cross (optimize o costs l) (optimize o costs r)
    orKeep p' (region o costs p')

end rebuild

end Verif.Opt
