/-!
# Operators of expressions

`sail-sql-parser/src/ast/expression.rs:684-1155`: the operator table with its binding powers, the operator
precedence parser of the parser library (chumsky, `pratt.rs`, which is not in the repository), and the
conversion of its result, which finds the upper bound of `BETWEEN` and the `ESCAPE` of `LIKE`.

What is between two operators — an identifier, a literal, a function call, an expression in parentheses —
is one token here. The words of one operator (`NOT LIKE`, `IS NOT NULL`, `IN (...)`, `ESCAPE '#'`) are one
token too; `NOT` where an operand can begin is the prefix operator.
-/

namespace Verif.Sql.Pratt

/-- The operators. Numbers stand for the variants of one power and for what is inside of an operator. -/
inductive Sym
  | plus | minus
  | tilde | not | bang
  | mul (k : Nat)
  | concat
  | shift (k : Nat)
  | amp | caret | bar
  | cmp (k : Nat)
  | distinct (k : Nat) | between (k : Nat)
  | like (k : Nat)
  | regex (k : Nat)
  | and | or
  | modifier (k : Nat)
  | escape (k : Nat)
  | test (k : Nat)
  deriving DecidableEq, Repr

/-- The binding powers of the prefix operators (`expression.rs:947-958,1115-1125`). -/
def Sym.pre : Sym → Option Nat
  | .plus => some 25
  | .minus => some 25
  | .tilde => some 25
  | .not => some 15
  | .bang => some 15
  | _ => none

/-- The binding powers of the infix operators, all of them left associative (`expression.rs:959-1072,
1093-1107,1126-1143`): `mul` is `* / % DIV`, `shift` is `>>> >> <<`, `like` is `LIKE ILIKE` and `SIMILAR TO`
(which take an `ESCAPE`), `regex` is `RLIKE REGEXP`. -/
def Sym.inf : Sym → Option Nat
  | .mul _ => some 24
  | .plus => some 23
  | .minus => some 23
  | .concat => some 23
  | .shift _ => some 22
  | .amp => some 21
  | .caret => some 20
  | .bar => some 19
  | .cmp _ => some 18
  | .distinct _ => some 16
  | .between _ => some 16
  | .like _ => some 16
  | .regex _ => some 16
  | .and => some 14
  | .or => some 13
  | _ => none

/-- The binding powers of the postfix operators (`expression.rs:939-946,1073-1092`): `modifier` is a field, a
subscript or `::`, `test` is `IS ...` and `IN`. -/
def Sym.post : Sym → Option Nat
  | .modifier _ => some 26
  | .escape _ => some 17
  | .test _ => some 16
  | _ => none

/-- The infix operators that are treated in their own ways by `build`. -/
inductive Kind
  | and
  | between (k : Nat)
  | like (k : Nat)
  | other
  deriving DecidableEq, Repr

/-- The kind of an infix operator. -/
def Sym.kind : Sym → Kind
  | .and => .and
  | .between k => .between k
  | .like k => .like k
  | _ => .other

/-- A token. -/
inductive Tok
  | atom (a : Nat)
  | op (s : Sym)
  deriving DecidableEq, Repr

/-- `Expr`: operators applied to operands; `BETWEEN` with both bounds, and a pattern with its `ESCAPE`. -/
inductive Ex
  | atom (a : Nat)
  | pre (s : Sym) (e : Ex)
  | inf (s : Sym) (l r : Ex)
  | post (s : Sym) (e : Ex)
  | between (k : Nat) (e low high : Ex)
  | likeEscape (k : Nat) (e pattern : Ex) (c : Nat)
  deriving DecidableEq, Repr

/-- `ExprFragment` (`expression.rs:684-721`). -/
inductive Frag
  | single (e : Ex)
  | pre (s : Sym) (e : Frag)
  | inf (s : Sym) (l r : Frag)
  | post (s : Sym) (e : Frag)
  deriving DecidableEq, Repr

mutual

/-- `pratt_go` of the parser library: a prefix operator with its operand, or an atom, and then all operators
that bind at least as tight as the given power. A left associative operator of power `p` is tried where the
power is at most `2p`, and its right operand has the power `2p + 1`; a prefix operator has `2p`. The fuel is
always enough, `go_fuel`. -/
def go : Nat → Nat → List Tok → Option (Frag × List Tok)
  | 0, _, _ => none
  | _ + 1, _, [] => none
  | f + 1, m, .atom a :: r => some (loop f m (.single (.atom a)) r)
  | f + 1, m, .op s :: r =>
    match s.pre with
    | none => none
    | some p =>
      match go f (2 * p) r with
      | none => none
      | some (e, r') => some (loop f m (.pre s e) r')

/-- The loop in `pratt_go`. An operator without a right operand is given back. -/
def loop : Nat → Nat → Frag → List Tok → Frag × List Tok
  | 0, _, l, ts => (l, ts)
  | _ + 1, _, l, [] => (l, [])
  | _ + 1, _, l, .atom a :: r => (l, .atom a :: r)
  | f + 1, m, l, .op s :: r =>
    match s.post with
    | some p => if m ≤ 2 * p then loop f m (.post s l) r else (l, .op s :: r)
    | none =>
      match s.inf with
      | none => (l, .op s :: r)
      | some p =>
        if m ≤ 2 * p then
          match go f (2 * p + 1) r with
          | none => (l, .op s :: r)
          | some (e, r') => loop f m (.inf s l e) r'
        else (l, .op s :: r)

end

/-- The fragment of a `BETWEEN` without its upper bound that the loop of `build_logical_and` finds
(`expression.rs:878-909`): operand, variant and lower bound. -/
def pending : Frag → Option (Frag × Nat × Frag)
  | .single _ => none
  | .pre _ e => pending e
  | .inf s l r =>
    match s.kind with
    | .between k => some (l, k, r)
    | _ => pending r
  | .post _ _ => none

/-- The fragment with another expression in the place of that `BETWEEN`. -/
def plug (x : Ex) : Frag → Frag
  | .single e => .single e
  | .pre s e => .pre s (plug x e)
  | .inf s l r =>
    match s.kind with
    | .between _ => .single x
    | _ => .inf s l (plug x r)
  | .post s e => .post s e

/-- The number of nodes. -/
def Frag.size : Frag → Nat
  | .single _ => 1
  | .pre _ e => e.size + 1
  | .inf _ l r => l.size + r.size + 1
  | .post _ e => e.size + 1

theorem pending_size {f l r : Frag} {k : Nat} (h : pending f = some (l, k, r)) :
    l.size < f.size ∧ r.size < f.size := by
  induction f with
  | single e => cases h
  | pre s e ih =>
    have := ih h
    simp only [Frag.size]; omega
  | inf s a b iha ihb =>
    simp only [Frag.size]
    rw [pending] at h
    split at h
    · cases h; omega
    · have := ihb h; omega
  | post s e ih => cases h

theorem plug_size (x : Ex) (f : Frag) : (plug x f).size ≤ f.size := by
  induction f with
  | single e => exact Nat.le_refl _
  | pre s e ih => simp only [plug, Frag.size]; omega
  | inf s a b iha ihb =>
    rw [plug]
    split
    · simp only [Frag.size]; omega
    · simp only [Frag.size]; omega
  | post s e ih => exact Nat.le_refl _

/-- `ExprFragment::Escape`. -/
def escapeOf : Frag → Option (Frag × Nat)
  | .post (.escape c) p => some (p, c)
  | _ => none

theorem escapeOf_size {f p : Frag} {c : Nat} (h : escapeOf f = some (p, c)) : p.size < f.size := by
  unfold escapeOf at h
  split at h
  · cases h; simp only [Frag.size]; omega
  · cases h

/-- `ExprFragment::build`, `build_pattern_and_escape` and `build_logical_and` (`expression.rs:728-924`); `none`
is the error. -/
def build : Frag → Option Ex
  | .single e => some e
  | .pre s e =>
    match build e with
    | none => none
    | some e => some (.pre s e)
  | .inf s l r =>
    match s.kind with
    | .and =>
      match _h : pending l with
      | some (e, k, low) =>
        match build e with
        | none => none
        | some e' =>
          match build low with
          | none => none
          | some low' =>
            match build r with
            | none => none
            | some high => build (plug (.between k e' low' high) l)
      | none =>
        match build l with
        | none => none
        | some l' =>
          match build r with
          | none => none
          | some r' => some (.inf s l' r')
    | .between _ => none
    | .like k =>
      match _h : escapeOf r with
      | some (p, c) =>
        match build p with
        | none => none
        | some p' =>
          match build l with
          | none => none
          | some l' => some (.likeEscape k l' p' c)
      | none =>
        match build r with
        | none => none
        | some r' =>
          match build l with
          | none => none
          | some l' => some (.inf s l' r')
    | .other =>
      match build l with
      | none => none
      | some l' =>
        match build r with
        | none => none
        | some r' => some (.inf s l' r')
  | .post s e =>
    match escapeOf (.post s e) with
    | some _ => none
    | none =>
      match build e with
      | none => none
      | some e => some (.post s e)
termination_by f => f.size
decreasing_by
  all_goals simp only [Frag.size]
  all_goals first
    | omega
    | (have := pending_size _h; omega)
    | (have := escapeOf_size _h; omega)
    | (have := plug_size (.between k e' low' high) l; omega)

/-- The parser of expressions (`expression.rs:1145-1153`): what is read from the beginning of the tokens, and the
rest. -/
def parseExpr (ts : List Tok) : Option (Ex × List Tok) :=
  match go (ts.length + 1) 0 ts with
  | none => none
  | some (f, r) =>
    match build f with
    | none => none
    | some e => some (e, r)

end Verif.Sql.Pratt
