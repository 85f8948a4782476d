import Verif.Sql.Lexer

/-!
# Positional parameters

`rewrite_positional_parameter_markers` (`sail-sql-analyzer/src/parser.rs`), the check of the number of
arguments (`sail-spark-connect/src/proto/plan.rs`) and the binding of variables.
-/

namespace Verif.Sql

/-- `usize::to_string`. -/
def numeral (n : Nat) : Text := Nat.toDigits 10 n

/-- The loop of `rewrite_positional_parameter_markers` (`parser.rs:59-71`). `pos` is the start of the
span of the next token; offsets count characters, not bytes. -/
def rewriteLoop (s : Text) : List Tok → Nat → Nat → Nat → Text → Text × Nat
  | [], _, last, count, output => (output ++ s.drop last, count)
  | t :: ts, pos, last, count, output =>
    if t = .punct '?' then
      rewriteLoop s ts (pos + t.raw.length) (pos + t.raw.length) (count + 1)
        (output ++ (s.drop last).take (pos - last) ++ ['$'] ++ numeral (count + 1))
    else rewriteLoop s ts (pos + t.raw.length) last count output

/-- `rewrite_positional_parameter_markers` (`parser.rs:54-73`). -/
def rewriteMarkers (uni : Char → Bool) (s : Text) : Option (Text × Nat) :=
  match lex uni s with
  | none => none
  | some ts => some (rewriteLoop s ts 0 0 0 [])

/-- The text and the outcome of the checks for a SQL relation with positional arguments
(`plan.rs:528-541`): the text to be parsed, or an error with the number of the unbound parameter. -/
inductive SqlText
  | ok (text : Text)
  | unbound (index : Nat)
  | parseError
  deriving DecidableEq, Repr

/-- The rewriting and the check of the number of arguments (`plan.rs:528-541`). -/
def positionalText {α : Type} (uni : Char → Bool) (s : Text) (args : List α) : SqlText :=
  if args.isEmpty then .ok s
  else
    match rewriteMarkers uni s with
    | none => .parseError
    | some (t, count) => if count > args.length then .unbound args.length else .ok t

/-- `parse_named_variable` (`identifier.rs:160-185`): a dollar sign or a colon directly followed by a
word. -/
def namedVariable : List Tok → Option (Text × List Tok)
  | .punct p :: .word w :: ts => if p == '$' || p == ':' then some (p :: w, ts) else none
  | _ => none

/-- `str::parse::<usize>` on a text without a sign. -/
def parseIndex (s : Text) : Option Nat :=
  if s ≠ [] ∧ s.all Char.isDigit = true ∧ Nat.ofDigitChars 10 s 0 < 2 ^ 64 then
    some (Nat.ofDigitChars 10 s 0)
  else none

/-- The argument for a variable (`resolver/expression/misc.rs:104-124`, which mirrors
`ParamValues::get_placeholders_with_values` of the query engine): without the first character, the
rest is the number of the argument. -/
def positionalValue {α : Type} (args : List α) (id : Text) : Option α :=
  match parseIndex id.tail with
  | some index => if index > 0 then args[index - 1]? else none
  | none => none

end Verif.Sql
