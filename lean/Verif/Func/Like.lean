/-!
# LIKE with an escape character (C70)

Models crates/sail-plan/src/function/scalar/predicate.rs and
crates/sail-function/src/scalar/predicate/rewrite_like_pattern.rs.  Strings are lists of characters.
The kernel that evaluates LIKE belongs to Arrow (arrow-string, `regex_like`); `kernelLike` is what it
documents: `%` any string, `_` any character, a backslash makes the next character literal, and a
backslash at the end stands for itself.  Case-insensitive matching is not modelled.
-/
namespace Verif.Func.Like

/-- rewrite_like_pattern.rs 168-204 (`rewrite_like_into_string`), the loop for an escape character
other than the backslash. -/
def rewriteLoop (escape : Char) : List Char → List Char
  | [] => []
  | [c] =>
    if c = '\\' then ['\\', '\\'] else [c]
  | c :: next :: rest =>
    if c = '\\' then '\\' :: '\\' :: rewriteLoop escape (next :: rest)
    else if c = escape then
      if next = '%' ∨ next = '_' ∨ next = escape then '\\' :: next :: rewriteLoop escape rest
      else if next = '\\' then c :: '\\' :: '\\' :: rewriteLoop escape rest
      else c :: next :: rewriteLoop escape rest
    else c :: rewriteLoop escape (next :: rest)

/-- rewrite_like_pattern.rs 168-172. -/
def rewrite (escape : Char) (pattern : List Char) : List Char :=
  if escape = '\\' then pattern else rewriteLoop escape pattern

/-- Arrow's reading of a pattern (see above). -/
def kernelLike : List Char → List Char → Bool
  | [], s => s.isEmpty
  | '\\' :: [], s => s == ['\\']
  | '\\' :: c :: p, s =>
    match s with
    | d :: t => c == d && kernelLike p t
    | [] => false
  | '%' :: p, s => (List.range (s.length + 1)).any fun (n : Nat) => kernelLike p (s.drop n)
  | '_' :: p, s =>
    match s with
    | _ :: t => kernelLike p t
    | [] => false
  | c :: p, s =>
    match s with
    | d :: t => c == d && kernelLike p t
    | [] => false

inductive Err where
  | notLiteral | notSingle | arity
deriving Repr, DecidableEq

/-- The third argument: a literal string (or NULL), or something that is not a string literal. -/
inductive Escape where
  | string (s : List Char)
  | other
deriving Repr, DecidableEq

/-- predicate.rs 12-30 (`extract_escape_char`). -/
def extractEscape : Escape → Except Err Char
  | .string [c] => .ok c
  | .string _ => .error .notSingle
  | .other => .error .notLiteral

/-- predicate.rs 32-75 (`build_like_expr`) with the evaluation of the expression it builds; the
kernel is handed the pattern as it is, or rewritten for an escape character that is not the
backslash. -/
def like (value pattern : List Char) : Option Escape → Except Err Bool
  | none => .ok (kernelLike pattern value)
  | some escape =>
    match extractEscape escape with
    | .error e => .error e
    | .ok c =>
      if c ≠ '\\' then .ok (kernelLike (rewrite c pattern) value)
      else .ok (kernelLike pattern value)

end Verif.Func.Like
