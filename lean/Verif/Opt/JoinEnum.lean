import Verif.Opt.JoinGraph

/-! # The join order search

Source: `crates/sail-physical-optimizer/src/join_reorder/{dp_plan,enumerator}.rs`.

Every number the search computes (estimated row counts, costs, the fact anchor penalty, the start of the greedy
fallback) comes from an arbitrary `Costs`: the theorems hold for every estimator and cost model, including ones
that return NaN. -/

namespace Verif.Opt

open JoinSet

/-- cardinality_estimator.rs, cost_model.rs and `derive_anchor_relations`/`should_apply_fact_anchor_penalty`
(enumerator.rs:53-164), as arbitrary functions on a type of numbers. -/
structure Costs where
  F : Type
  /-- `<` on floats -/
  lt : F → F → Bool
  /-- `==` on floats -/
  eq : F → F → Bool
  inf : F
  zero : F
  /-- `estimate_cardinality` of one relation -/
  leafCard : Nat → Except Err F
  /-- `estimate_join_cardinality` -/
  joinCard : F → F → List Nat → F
  /-- `compute_cost` from the costs and row counts of the two inputs and the row count of the join -/
  cost : F → F → F → F → F → F
  /-- the cost after the fact anchor penalty: relations, edges, cost, row count -/
  penalize : JoinSet → List Nat → F → F → F
  /-- row count of a cross join -/
  crossCard : F → F → F
  /-- the penalty of a cross join -/
  crossCost : F → F
  /-- the relation with the largest estimated row count -/
  start : Nat

/-- dp_plan.rs:56-71 -/
inductive Kind where
  | leaf (id : Nat)
  | join (left right : JoinSet) (edges : List Nat)

/-- dp_plan.rs:7-17 -/
structure DP (F : Type) where
  set : JoinSet
  cost : F
  card : F
  kind : Kind

/-- The DP table: insertion at the front hides an older entry. -/
abbrev Table (F : Type) := List (JoinSet × DP F)

def Table.get {F : Type} (t : Table F) (s : JoinSet) : Option (DP F) :=
  match t with
  | [] => none
  | e :: t => if e.1 = s then some e.2 else Table.get t s

/-- The mutable fields of `PlanEnumerator` (enumerator.rs:35-51). -/
structure St (F : Type) where
  table : Table F
  emits : Nat

section enumerator

variable {α : Type} (g : Graph α) (threshold : Nat) (c : Costs)

/-- The result of a function of the enumerator: an error, or whether to go on and the new state. -/
abbrev Res (F : Type) := Except Err (Bool × St F)

/-- Runs `f` on every element until it says stop. -/
def forEach {F : Type} (f : JoinSet → St F → Res F) : List JoinSet → St F → Res F
  | [], s => .ok (true, s)
  | u :: us, s => match f u s with
    | .error e => .error e
    | .ok (false, s) => .ok (false, s)
    | .ok (true, s) => forEach f us s

/-- The union of the neighbours whose bit is set in `mask`, least first (enumerator.rs:185-190). -/
def maskUnion : List JoinSet → Nat → JoinSet
  | [], _ => 0#64
  | n :: ns, mask => (if mask % 2 = 1 then n else 0#64) ||| maskUnion ns (mask / 2)

/-- The distinct non-empty unions in the order of their first occurrence (enumerator.rs:182-195). -/
def distinct : List JoinSet → List JoinSet → List JoinSet
  | [], _ => []
  | u :: us, seen => if u == 0#64 || u ∈ seen then distinct us seen else u :: distinct us (u :: seen)

/-- enumerator.rs:167-199 -/
def forUnions {F : Type} (ns : List JoinSet) (f : JoinSet → St F → Res F) (s : St F) : Res F :=
  if ns.isEmpty then .ok (true, s)
  else if ns.length ≥ 64 then .error .internal
  else forEach f (distinct ((List.range (2 ^ ns.length)).map (maskUnion ns)) []) s

/-- enumerator.rs:201-206 -/
def unionAll (ns : List JoinSet) : JoinSet := ns.foldl (· ||| ·) 0#64

/-- The join of two sets as the cost model prefers it (enumerator.rs:537-573). -/
def joinPlan (left right : JoinSet) (lp rp : DP c.F) (edges : List Nat) : DP c.F :=
  let card := c.joinCard lp.card rp.card edges
  let forward := c.cost lp.cost lp.card rp.cost rp.card card
  let reverse := c.cost rp.cost rp.card lp.cost lp.card card
  let (pl, pr, cost) := if c.lt reverse forward then (right, left, reverse) else (left, right, forward)
  ⟨pl ||| pr, c.penalize (left ||| right) edges cost card, card, .join pl pr edges⟩

/-- enumerator.rs:513-588 -/
def emitPair (left right : JoinSet) (edges : List Nat) (s : St c.F) : St c.F :=
  match s.table.get left, s.table.get right with
  | some lp, some rp =>
    let p := joinPlan c left right lp rp edges
    match s.table.get (left ||| right) with
    | some old => if c.lt p.cost old.cost then { s with table := (left ||| right, p) :: s.table } else s
    | none => { s with table := (left ||| right, p) :: s.table }
  | _, _ => s

/-- enumerator.rs:492-510 -/
def tryEmit (left right : JoinSet) (edges : List Nat) (s : St c.F) : Res c.F :=
  let s := { s with emits := s.emits + 1 }
  if s.emits > threshold then .ok (false, s) else .ok (true, emitPair c left right edges s)

/-- The body of the first closure of `enumerate_cmp_rec` (enumerator.rs:457-468). -/
def cmpStep (left right : JoinSet) (u : JoinSet) (s : St c.F) : Res c.F :=
  let combined := right ||| u
  if right.cardinality < combined.cardinality && (s.table.get combined).isSome then
    let edges := connecting g left combined
    if edges.isEmpty then .ok (true, s) else tryEmit threshold c left combined edges s
  else .ok (true, s)

/-- enumerator.rs:445-489. `fuel` bounds the depth of the recursion. -/
def cmpRec : Nat → (left right forbidden : JoinSet) → St c.F → Res c.F
  | 0, _, _, _, _ => .error .fuel
  | k + 1, left, right, forbidden, s =>
    let ns := neighbors g right forbidden
    if ns.isEmpty then .ok (true, s)
    else match forUnions ns (cmpStep g threshold c left right) s with
      | .error e => .error e
      | .ok (false, s) => .ok (false, s)
      | .ok (true, s) =>
        forUnions ns (fun u => cmpRec k left (right ||| u) (forbidden ||| unionAll ns)) s

/-- The loop of enumerator.rs:384-401. -/
def csgLoop (fuel : Nat) (nodes forbidden : JoinSet) : List JoinSet → JoinSet → St c.F → Res c.F
  | [], _, s => .ok (true, s)
  | n :: ns, processed, s =>
    let edges := connecting g nodes n
    match (if edges.isEmpty then Except.ok (true, s) else tryEmit threshold c nodes n edges s : Res c.F) with
    | .error e => .error e
    | .ok (false, s) => .ok (false, s)
    | .ok (true, s) => match cmpRec g threshold c fuel nodes n (forbidden ||| processed) s with
      | .error e => .error e
      | .ok (false, s) => .ok (false, s)
      | .ok (true, s) => csgLoop fuel nodes forbidden ns (processed ||| n) s

/-- enumerator.rs:368-404 -/
def emitCsg (fuel : Nat) (nodes : JoinSet) (s : St c.F) : Res c.F :=
  if nodes.cardinality = g.relations.length then .ok (true, s)
  else match fromIter (List.range (nodes.elems.headD 0)) with
    | .error e => .error e
    | .ok below => csgLoop g threshold c fuel nodes (nodes ||| below) (neighbors g nodes (nodes ||| below)) 0#64 s

/-- The body of the first closure of `enumerate_csg_rec` (enumerator.rs:413-421). -/
def csgStep (fuel : Nat) (nodes u : JoinSet) (s : St c.F) : Res c.F :=
  let new := nodes ||| u
  if (s.table.get new).isSome && nodes.cardinality < new.cardinality then emitCsg g threshold c fuel new s
  else .ok (true, s)

/-- enumerator.rs:406-442 -/
def csgRec (fuel : Nat) : Nat → (nodes forbidden : JoinSet) → St c.F → Res c.F
  | 0, _, _, _ => .error .fuel
  | k + 1, nodes, forbidden, s =>
    let ns := neighbors g nodes forbidden
    if ns.isEmpty then .ok (true, s)
    else match forUnions ns (csgStep g threshold c fuel nodes) s with
      | .error e => .error e
      | .ok (false, s) => .ok (false, s)
      | .ok (true, s) => forUnions ns (fun u => csgRec fuel k (nodes ||| u) (forbidden ||| unionAll ns)) s

/-- enumerator.rs:337-354 -/
def startNode (fuel idx : Nat) (s : St c.F) : Res c.F :=
  match singleton idx with
  | .error e => .error e
  | .ok nodes => match emitCsg g threshold c fuel nodes s with
    | .error e => .error e
    | .ok (false, s) => .ok (false, s)
    | .ok (true, s) => match fromIter (List.range idx) with
      | .error e => .error e
      | .ok below => csgRec g threshold c fuel fuel nodes (below ||| nodes) s

/-- enumerator.rs:357-365 over the relations below `n`, last first. -/
def dphyp (fuel : Nat) : Nat → St c.F → Res c.F
  | 0, s => .ok (true, s)
  | n + 1, s => match startNode g threshold c fuel n s with
    | .error e => .error e
    | .ok (false, s) => .ok (false, s)
    | .ok (true, s) => dphyp fuel n s

/-- enumerator.rs:313-330 for the relations from `i` on (relation ids are positions: builder.rs:604-605). -/
def initLeaves : List (Plan α) → Nat → Table c.F → Except Err (Table c.F)
  | [], _, t => .ok t
  | _ :: rs, i, t => match singleton i, c.leafCard i with
    | .ok s, .ok card => initLeaves rs (i + 1) ((s, ⟨s, c.zero, card, .leaf i⟩) :: t)
    | _, _ => .error .internal

/-- `ensure_leaf_plans` (enumerator.rs:290-310): leaves that are missing. -/
def ensureLeaves : List (Plan α) → Nat → Table c.F → Except Err (Table c.F)
  | [], _, t => .ok t
  | _ :: rs, i, t => match singleton i with
    | .error e => .error e
    | .ok s => if (t.get s).isSome then ensureLeaves rs (i + 1) t else match c.leafCard i with
      | .ok card => ensureLeaves rs (i + 1) ((s, ⟨s, c.zero, card, .leaf i⟩) :: t)
      | .error e => .error e

/-- A candidate of the greedy search: relation, edges, row count and cost. -/
structure Cand where
  rel : Nat
  edges : List Nat
  card : c.F
  cost : c.F

/-- Whether a new candidate beats the best one so far; both start at infinity (enumerator.rs:694-701, :724-731). -/
def beats (card cost : c.F) (best : Option (Cand c)) : Bool :=
  let bc := match best with | some b => b.card | none => c.inf
  let bk := match best with | some b => b.cost | none => c.inf
  c.lt card bc || (c.eq card bc && c.lt cost bk)

/-- The connected extensions (enumerator.rs:663-702). -/
def pickConnected (t : Table c.F) (cur : JoinSet) (cp : DP c.F) :
    List Nat → Option (Cand c) → Except Err (Option (Cand c))
  | [], best => .ok best
  | n :: ns, best => match singleton n with
    | .error e => .error e
    | .ok s => match t.get s with
      | none => .error .internal
      | some np =>
        let edges := connecting g cur s
        if edges.isEmpty then pickConnected t cur cp ns best
        else
          let card := c.joinCard cp.card np.card edges
          let cost := c.cost cp.cost cp.card np.cost np.card card
          pickConnected t cur cp ns (if beats c card cost best then some ⟨n, edges, card, cost⟩ else best)

/-- The cross joins (enumerator.rs:705-733). -/
def pickCross (t : Table c.F) (cp : DP c.F) : List Nat → Option (Cand c) → Except Err (Option (Cand c))
  | [], best => .ok best
  | n :: ns, best => match singleton n with
    | .error e => .error e
    | .ok s => match t.get s with
      | none => .error .internal
      | some np =>
        let card := c.crossCard cp.card np.card
        let cost := c.crossCost (c.cost cp.cost cp.card np.cost np.card card)
        pickCross t cp ns (if beats c card cost best then some ⟨n, [], card, cost⟩ else best)

/-- One relation more (enumerator.rs:655-741). -/
def pickNext (t : Table c.F) (cur remaining : JoinSet) (cp : DP c.F) : Except Err (Cand c) :=
  match pickConnected g c t cur cp remaining.elems none with
  | .error e => .error e
  | .ok (some b) => .ok b
  | .ok none => match pickCross c t cp remaining.elems none with
    | .error e => .error e
    | .ok (some b) => .ok b
    | .ok none => .error .internal

/-- The loop of enumerator.rs:655-757. -/
def greedyLoop : Nat → (cur remaining : JoinSet) → DP c.F → Table c.F → Except Err (DP c.F × Table c.F)
  | 0, _, _, _, _ => .error .fuel
  | k + 1, cur, remaining, cp, t =>
    if remaining == 0#64 then .ok (cp, t)
    else match pickNext g c t cur remaining cp with
      | .error e => .error e
      | .ok b => match singleton b.rel with
        | .error e => .error e
        | .ok s =>
          let p : DP c.F := ⟨cur ||| s, b.cost, b.card, .join cur s b.edges⟩
          greedyLoop k (cur ||| s) (remaining &&& ~~~s) p ((cur ||| s, p) :: t)

/-- enumerator.rs:600-760 (called with more than two relations: mod.rs:212-215). -/
def greedy (fuel : Nat) (t : Table c.F) : Except Err (DP c.F × Table c.F) :=
  match ensureLeaves c g.relations 0 t, fromIter (List.range g.relations.length) with
  | .ok t, .ok all => match t.get all with
    | some p => .ok (p, t)
    | none => match singleton c.start with
      | .error e => .error e
      | .ok s => match t.get s with
        | none => .error .internal
        | some cp => greedyLoop g c fuel s (all &&& ~~~s) cp t
  | _, _ => .error .internal

/-- `solve_with_status` (enumerator.rs:238-285) and the fallback to `solve_greedy` (mod.rs:223-263). -/
def solve (fuel : Nat) : Except Err (DP c.F × Table c.F) :=
  match initLeaves c g.relations 0 [] with
  | .error e => .error e
  | .ok t => match dphyp g threshold c fuel g.relations.length ⟨t, 0⟩ with
    | .error e => .error e
    | .ok (_, s) => match fromIter (List.range g.relations.length) with
      | .error e => .error e
      | .ok all => match s.table.get all with
        | some p => .ok (p, s.table)
        | none => greedy g c fuel s.table

end enumerator

end Verif.Opt
