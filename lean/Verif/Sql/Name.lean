import Verif.Sql.Str

/-!
# Object names

Printing of names by the catalog (`sail-catalog/src/utils.rs`) and parsing of names
(`sail-sql-parser/src/ast/identifier.rs`, `sail-sql-analyzer/src/parser.rs`).
-/

namespace Verif.Sql

/-- `[a-zA-Z_]` (`utils.rs:9-12`). -/
def isNameStart (c : Char) : Bool := c.isAlpha || c == '_'

/-- `[a-zA-Z0-9_]` (`utils.rs:9-12`). -/
def isNameChar (c : Char) : Bool := c.isAlphanum || c == '_'

/-- `VALID_IDENTIFIER_REGEX.is_match` (`utils.rs:9-12`). The `$` of the regular expression library
matches at the end of the text only. -/
def validIdentifier : Text → Bool
  | [] => false
  | c :: r => isNameStart c && r.all isNameChar

/-- `name.replace('`', "``")`. -/
def doubleTicks : Text → Text
  | [] => []
  | c :: r => if c == '`' then c :: c :: doubleTicks r else c :: doubleTicks r

/-- `quote_name_if_needed` (`utils.rs:51-57`). -/
def quoteNameIfNeeded (name : Text) : Text :=
  if validIdentifier name then name else '`' :: doubleTicks name ++ ['`']

/-- `quote_names_if_needed` (`utils.rs:59-65`): the parts joined with dots. -/
def quoteNamesIfNeeded : List Text → Text
  | [] => []
  | [n] => quoteNameIfNeeded n
  | n :: ns => quoteNameIfNeeded n ++ '.' :: quoteNamesIfNeeded ns

/-- `quote_namespace_if_needed` (`utils.rs:67-74`): the head, then a dot and each part of the tail. -/
def quoteNamespaceIfNeeded (head : Text) (tail : List Text) : Text :=
  tail.foldl (fun acc part => acc ++ ['.'] ++ quoteNameIfNeeded part) (quoteNameIfNeeded head)

/-- `Token::is_whitespace` (`token.rs:44-54`). -/
def Tok.isWhitespace : Tok → Bool
  | .lineComment _ => true
  | .blockComment _ => true
  | .ws _ _ => true
  | _ => false

/-- `skip_whitespace` (`sail-sql-parser/src/utils.rs:18-31`). -/
def skipWs (ts : List Tok) : List Tok := ts.dropWhile Tok.isWhitespace

/-- `parse_identifier` that accepts every word (`identifier.rs:18-62,77-79`), with the option for
double quoted identifiers off. -/
def parseIdent : List Tok → Option (Text × List Tok)
  | .word raw :: ts => some (raw, skipWs ts)
  | .str raw .backtick :: ts =>
    match parseStr .backtick raw with
    | .valid v none => some (v, skipWs ts)
    | _ => none
  | _ => none

/-- `parse_operator` for the period (`operator.rs:14-40,102`). -/
def parsePeriod : List Tok → Option (List Tok)
  | .punct c :: ts => if c == '.' then some (skipWs ts) else none
  | _ => none

/-- The repetition of separator and item in `sequence` (`combinator.rs:12-28`), with a bound on the
rounds. A separator without an item after it is given back. -/
def parseTail : Nat → List Tok → List Text × List Tok
  | 0, ts => ([], ts)
  | n + 1, ts =>
    match parsePeriod ts with
    | none => ([], ts)
    | some r =>
      match parseIdent r with
      | none => ([], ts)
      | some (v, r') => (v :: (parseTail n r').1, (parseTail n r').2)

/-- `create_object_name_parser` (`parser.rs:171-187`, `identifier.rs:132-133`) on tokens. Every round
of the repetition consumes a token. -/
def parseNameTokens (ts : List Tok) : Option (List Text) :=
  match parseIdent (skipWs ts) with
  | none => none
  | some (v, r) =>
    if skipWs (parseTail r.length r).2 == [] then some (v :: (parseTail r.length r).1) else none

/-- `parse_object_name` (`sail-sql-analyzer/src/parser.rs:31-46,97-99`) and `from_ast_object_name`
(`expression.rs:125-132`). -/
def parseObjectName (uni : Char → Bool) (s : Text) : Option (List Text) :=
  match lex uni s with
  | none => none
  | some ts => parseNameTokens ts

end Verif.Sql
