/-!
# The SQL tokenizer

`sail-sql-parser/src/lexer.rs` with the default parser options, which are the only ones used
(`sail-sql-analyzer/src/parser.rs:29-46`). Texts are lists of characters. The parser library is
a parsing expression grammar: alternatives are tried in order, repetitions are greedy, and
nothing is undone inside of an alternative that succeeded.
-/

namespace Verif.Sql

/-- A Rust string as its characters. -/
abbrev Text := List Char

/-- The style of a quoted string (`token.rs:140-178`). The single and the double quote are told
apart by the delimiter; the triple quotes do not occur with the default options. -/
inductive Style
  | quoted (delim : Char) (pre : Option Char)
  | unicode (delim : Char) (escape : Option Char)
  | backtick
  | dollar (tag : Text)
  deriving DecidableEq, Repr

/-- A token (`token.rs:13-96`), with its text. The keyword of a word is a function of its text and
left out. White space runs of the four kinds are one constructor with the character. -/
inductive Tok
  | lineComment (raw : Text)
  | blockComment (raw : Text)
  | str (raw : Text) (style : Style)
  | word (raw : Text)
  | ws (c : Char) (n : Nat)
  | punct (c : Char)
  deriving DecidableEq, Repr

/-- The text of the source that the token covers (its span). -/
def Tok.raw : Tok → Text
  | .lineComment raw => raw
  | .blockComment raw => raw
  | .str raw _ => raw
  | .word raw => raw
  | .ws c n => List.replicate n c
  | .punct c => [c]

/-- Characters of a word (`lexer.rs:10-31`): `char::is_alphanumeric` or the underscore. Which
characters outside of ASCII are alphanumeric is a parameter. -/
def isWordChar (uni : Char → Bool) (c : Char) : Bool :=
  c.isAlphanum || c == '_' || (128 ≤ c.toNat && uni c)

/-- The characters of `for_all_punctuations!` (`token.rs:180-209`). -/
def puncts : List Char :=
  ['!', '#', '$', '%', '&', '(', ')', '*', '+', ',', '-', '.', '/', ':', ';', '<', '=', '>', '?',
   '@', '[', '\\', ']', '^', '{', '|', '}', '~']

/-- Puts consumed characters in front of what was consumed after them. -/
def pre (a : Text) : Option (Text × Text) → Option (Text × Text)
  | none => none
  | some (b, r) => some (a ++ b, r)

/-- `none_of("\n\r")`. -/
def notNewline (c : Char) : Bool := !(c == '\n' || c == '\r')

/-- `single_line_comment` (`lexer.rs:33-41`). -/
def lineComment : Text → Option (Tok × Text)
  | a :: b :: r =>
    if a == '-' && b == '-' then
      some (.lineComment (a :: b :: r.takeWhile notNewline), r.dropWhile notNewline)
    else none
  | _ => none

/-- The inside and the end of a comment that is nested `n` deep in others, of `multi_line_comment`
(`lexer.rs:43-57`). The recursive grammar fails as a whole when an inner comment is not closed,
so it accepts exactly what the count of open comments accepts. -/
def blockBody : Nat → Text → Option (Text × Text)
  | _, [] => none
  | _, [_] => none
  | n, a :: b :: r =>
    if a == '*' && b == '/' then
      if n == 0 then some ([a, b], r) else pre [a, b] (blockBody (n - 1) r)
    else if a == '/' && b == '*' then pre [a, b] (blockBody (n + 1) r)
    else pre [a] (blockBody n (b :: r))

/-- `multi_line_comment` (`lexer.rs:43-57`). -/
def blockComment : Text → Option (Tok × Text)
  | a :: b :: r =>
    if a == '/' && b == '*' then
      match blockBody 0 r with
      | some (x, r') => some (.blockComment (a :: b :: x), r')
      | none => none
    else none
  | _ => none

/-- The inside and the closing delimiter of `none_escape_text` (`lexer.rs:59-69`). -/
def plainBody (d : Char) : Text → Option (Text × Text)
  | [] => none
  | c :: r => if c == d then some ([c], r) else pre [c] (plainBody d r)

/-- The inside and the closing delimiter of `backslash_escape_text` (`lexer.rs:87-100`). -/
def escBody (d : Char) : Text → Option (Text × Text)
  | [] => none
  | [c] => if c == d then some ([c], []) else none
  | c :: e :: r =>
    if c == '\\' then pre [c, e] (escBody d r)
    else if c == d then some ([c], e :: r)
    else pre [c] (escBody d (e :: r))

/-- The blanks allowed between the prefix and the delimiter (`lexer.rs:102-111`). -/
def isBlank (c : Char) : Bool := c == ' ' || c == '\t'

/-- A prefix letter, blanks, a delimiter and a body (`string_prefix`, `lexer.rs:102-111`). -/
def prefixed (p : Char → Bool) (d : Char) (body : Text → Option (Text × Text)) :
    Text → Option (Tok × Text)
  | [] => none
  | c :: r =>
    if p c then
      match r.dropWhile isBlank with
      | [] => none
      | q :: r' =>
        if q == d then
          match body r' with
          | some (x, rest) => some (.str (c :: r.takeWhile isBlank ++ q :: x) (.quoted d (some c)), rest)
          | none => none
        else none
    else none

/-- The prefix of raw strings. -/
def isRawPrefix (c : Char) : Bool := c == 'r' || c == 'R'

/-- `raw_string` (`lexer.rs:113-131`). -/
def rawString (d : Char) (s : Text) : Option (Tok × Text) := prefixed isRawPrefix d (plainBody d) s

/-- `escape_string` (`lexer.rs:133-152`): an optional prefix, which is not given up once its letter
was read. -/
def escString (d : Char) : Text → Option (Tok × Text)
  | [] => none
  | c :: r =>
    if c.isAlpha then prefixed Char.isAlpha d (escBody d) (c :: r)
    else if c == d then
      match escBody d r with
      | some (x, rest) => some (.str (c :: x) (.quoted d none), rest)
      | none => none
    else none

/-- `unicode_escape_string` (`lexer.rs:177-197`). -/
def unicodeString (d : Char) : Text → Option (Tok × Text)
  | a :: b :: c :: r =>
    if a == 'U' && b == '&' && c == d then
      match plainBody d r with
      | some (x, rest) => some (.str (a :: b :: c :: x) (.unicode d none), rest)
      | none => none
    else none
  | _ => none

/-- The inside and the closing backtick of `backtick_quoted_string` (`lexer.rs:154-175`). -/
def tickBody : Text → Option (Text × Text)
  | [] => none
  | [c] => if c == '`' then some ([c], []) else none
  | c :: e :: r =>
    if c == '`' then
      if e == '`' then pre [c, e] (tickBody r) else some ([c], e :: r)
    else pre [c] (tickBody (e :: r))

/-- `backtick_quoted_string` (`lexer.rs:154-175`). -/
def tickString : Text → Option (Tok × Text)
  | [] => none
  | c :: r =>
    if c == '`' then
      match tickBody r with
      | some (x, rest) => some (.str (c :: x) .backtick, rest)
      | none => none
    else none

/-- Everything up to and including the next occurrence of the tag. -/
def findTag (tag : Text) : Text → Option (Text × Text)
  | [] => none
  | c :: r =>
    if tag.isPrefixOf (c :: r) then some (tag, (c :: r).drop tag.length)
    else pre [c] (findTag tag r)

/-- `dollar_quoted_string` (`lexer.rs:199-221`): the tag is any text between two dollar signs. -/
def dollarString : Text → Option (Tok × Text)
  | [] => none
  | c :: r =>
    if c == '$' then
      match r.dropWhile (· != '$') with
      | [] => none
      | e :: r' =>
        let tag := c :: r.takeWhile (· != '$') ++ [e]
        match findTag tag r' with
        | some (x, rest) => some (.str (tag ++ x) (.dollar tag), rest)
        | none => none
    else none

/-- `string` (`lexer.rs:251-294`) without triple quotes. -/
def strTok (s : Text) : Option (Tok × Text) :=
  rawString '\'' s <|> rawString '"' s <|> escString '\'' s <|> escString '"' s <|>
    unicodeString '\'' s <|> unicodeString '"' s <|> tickString s <|> dollarString s

/-- `word` (`lexer.rs:10-31`). -/
def wordTok (uni : Char → Bool) : Text → Option (Tok × Text)
  | [] => none
  | c :: r =>
    if isWordChar uni c then
      some (.word (c :: r.takeWhile (isWordChar uni)), r.dropWhile (isWordChar uni))
    else none

/-- `whitespace` (`lexer.rs:223-234`). -/
def wsTok (w : Char) : Text → Option (Tok × Text)
  | [] => none
  | c :: r =>
    if c == w then some (.ws w ((r.takeWhile (· == w)).length + 1), r.dropWhile (· == w)) else none

/-- `punctuation` (`lexer.rs:236-249`). -/
def punctTok : Text → Option (Tok × Text)
  | [] => none
  | c :: r => if puncts.contains c then some (.punct c, r) else none

/-- One round of the choice in `create_lexer` (`lexer.rs:296-316`). -/
def lexOne (uni : Char → Bool) (s : Text) : Option (Tok × Text) :=
  lineComment s <|> blockComment s <|> strTok s <|> wordTok uni s <|> wsTok ' ' s <|>
    wsTok '\n' s <|> wsTok '\r' s <|> wsTok '\t' s <|> punctTok s

/-- The repetition of `create_lexer` up to the end, with a bound on the number of rounds. -/
def lexN (uni : Char → Bool) : Nat → Text → Option (List Tok)
  | _, [] => some []
  | 0, _ :: _ => none
  | n + 1, c :: r =>
    match lexOne uni (c :: r) with
    | none => none
    | some (t, rest) =>
      match lexN uni n rest with
      | none => none
      | some ts => some (t :: ts)

/-- `create_lexer` (`lexer.rs:296-316`): every round consumes a character, so the length of the
text bounds the number of rounds. -/
def lex (uni : Char → Bool) (s : Text) : Option (List Tok) := lexN uni s.length s

end Verif.Sql
