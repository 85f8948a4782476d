/-!
# Glob patterns of paths

`sail-data-source/src/url.rs`: the parser of the glob syntax of Hadoop file systems, the expansion into patterns of the
`glob` crate, and the division of an expanded path. Strings are lists of characters. The `glob` crate itself is modelled
below from its documented behaviour; percent decoding, schemes and authorities are left out.
-/

namespace Verif.Io.Glob

/-- `CharacterClass` (`url.rs:33-37`). -/
inductive Choice
  | single (c : Char)
  | range (first last : Char)
  deriving DecidableEq, Repr

/-- `PatternSegment` (`url.rs:18-31`). -/
inductive Seg
  | asterisk
  | questionMark
  | character (c : Char)
  | characterClass (negated : Bool) (choices : List Choice)
  | alternation (patterns : List (List Seg))

/-! ## The parser -/

/-- The choices of a character class (`url.rs:45-53`): `a-b` if there are three such characters, else one character. -/
def parseChoices : List Char → List Choice
  | [] => []
  | [a] => [.single a]
  | [a, b] => [.single a, .single b]
  | a :: b :: c :: rest => if b = '-' then .range a c :: parseChoices rest else .single a :: parseChoices (b :: c :: rest)

/-- The characters up to a `]` (`none_of("]").repeated()`), and the rest. -/
def untilBracket (s : List Char) : List Char × List Char := (s.takeWhile (· ≠ ']'), s.dropWhile (· ≠ ']'))

/-- The text of a character class after `[` and `^` (`url.rs:54-60`) and the `]` (`url.rs:71`): a `]` that comes first
belongs to the class, which has some character. -/
def parseClassText : List Char → Option (List Char × List Char)
  | ']' :: s =>
    match untilBracket s with
    | (inner, ']' :: rest) => some (']' :: inner, rest)
    | _ => none
  | s =>
    match untilBracket s with
    | ([], _) => none
    | (inner, ']' :: rest) => some (inner, rest)
    | _ => none

/-- A character class after `[` (`url.rs:68-75`). -/
def parseClass (s : List Char) : Option (Seg × List Char) :=
  match s with
  | '^' :: s => (parseClassText s).map fun p => (.characterClass true (parseChoices p.1), p.2)
  | s => (parseClassText s).map fun p => (.characterClass false (parseChoices p.1), p.2)

/-- `whitespace()` of the parser library, as `char::is_whitespace`. -/
def isWhitespace (c : Char) : Bool :=
  let n := c.toNat
  (9 ≤ n && n ≤ 13) || n == 32 || n == 0x85 || n == 0xa0 || n == 0x1680 || (0x2000 ≤ n && n ≤ 0x200a) || n == 0x2028 ||
    n == 0x2029 || n == 0x202f || n == 0x205f || n == 0x3000

/-- White space around an alternative (`padded`). -/
def skipBlank (s : List Char) : List Char := s.dropWhile isWhitespace

mutual

/-- `pattern` (`url.rs:61-90`). `fuel` bounds the depth of the recursion. -/
def parsePattern : Nat → List Char → Option (Seg × List Char)
  | 0, _ => none
  | _ + 1, [] => none
  | n + 1, c :: s =>
    if c = '*' then some (.asterisk, s)
    else if c = '?' then some (.questionMark, s)
    else if c = '[' then parseClass s
    else if c = '{' then parseAlternation n s
    else some (.character c, s)

/-- The alternatives after `{` or `,` (`url.rs:76-87`). -/
def parseAlternation : Nat → List Char → Option (Seg × List Char)
  | 0, _ => none
  | n + 1, s =>
    match parseAlternatives n s with
    | none => none
    | some (patterns, s) => some (.alternation patterns, s)

/-- `separated_by(',')` up to the `}`. -/
def parseAlternatives : Nat → List Char → Option (List (List Seg) × List Char)
  | 0, _ => none
  | n + 1, s =>
    match parseAlternative n (skipBlank s) with
    | none => none
    | some (segs, s) =>
      if segs.isEmpty then none
      else
        match skipBlank s with
        | ',' :: s =>
          match parseAlternatives n s with
          | none => none
          | some (more, s) => some (segs :: more, s)
        | '}' :: s => some ([segs], s)
        | _ => none

/-- The segments of one alternative (`url.rs:62-65` and `repeated`): none begins with `,`, `}` or white space. The
repetition stops where a segment cannot be read; what follows is then not `,` or `}` and the alternation fails. -/
def parseAlternative : Nat → List Char → Option (List Seg × List Char)
  | 0, _ => none
  | _ + 1, [] => some ([], [])
  | n + 1, c :: s =>
    if c = ',' || c = '}' || isWhitespace c then some ([], c :: s)
    else
      match parsePattern n (c :: s) with
      | none => some ([], c :: s)
      | some (seg, rest) =>
        match parseAlternative n rest with
        | none => none
        | some (segs, rest) => some (seg :: segs, rest)

end

/-- `sequence_parser` (`url.rs:44-95`): all of the text is read. -/
def parseSequence (fuel : Nat) : Nat → List Char → Option (List Seg)
  | 0, _ => none
  | _ + 1, [] => some []
  | n + 1, c :: s =>
    match parsePattern fuel (c :: s) with
    | none => none
    | some (seg, rest) =>
      match parseSequence fuel n rest with
      | none => none
      | some segs => some (seg :: segs)

/-- The parser on a text, which must not be empty. -/
def parse (s : List Char) : Option (List Seg) :=
  if s.isEmpty then none else parseSequence (4 * s.length + 4) (s.length + 1) s

/-! ## The expansion -/

/-- What `expand_character_class` (`url.rs:119-123`) has collected. -/
structure Collected where
  normal : List Choice
  exclamation : Bool
  hyphen : Bool
  bracket : Bool

/-- One choice (`url.rs:125-168`). -/
def Collected.add (s : Collected) : Choice → Collected
  | .single '!' => { s with exclamation := true }
  | .single '-' => { s with hyphen := true }
  | .single ']' => { s with bracket := true }
  | .single c => { s with normal := s.normal ++ [.single c] }
  | .range first last =>
    if first = '!' ∧ last = ']' then
      { s with exclamation := true, bracket := true, normal := s.normal ++ [.range '"' '\\'] }
    else if first = '!' then
      { s with
        exclamation := s.exclamation || decide ('!' ≤ last),
        normal := if '!' < last then s.normal ++ [.range '"' last] else s.normal }
    else if first = ']' then
      { s with
        bracket := s.bracket || decide (']' ≤ last),
        normal := if ']' < last then s.normal ++ [.range '^' last] else s.normal }
    else if last = ']' then
      { s with
        bracket := s.bracket || decide (first ≤ ']'),
        normal := if first < ']' then s.normal ++ [.range first '\\'] else s.normal }
    else { s with normal := s.normal ++ [.range first last] }

/-- How a choice is written (`url.rs:187-196`). -/
def Choice.write : Choice → List Char
  | .single c => [c]
  | .range first last => [first, '-', last]

/-- `expand_character_class` (`url.rs:119-207`). -/
def expandClass (negated : Bool) (choices : List Choice) : List Char :=
  let s := choices.foldl Collected.add ⟨[], false, false, false⟩
  if s.normal.isEmpty && !s.bracket && !negated then
    match s.exclamation, s.hyphen with
    | true, true => "[-!]".toList
    | true, false => "!".toList
    | false, true => "-".toList
    | false, false => []
  else
    '[' :: (if negated then ['!'] else []) ++ (if s.bracket then [']'] else []) ++ s.normal.flatMap Choice.write ++
      (if s.exclamation then ['!'] else []) ++ (if s.hyphen then ['-'] else []) ++ [']']

/-- The product of expansions (`url.rs:105-109`). -/
def product (acc x : List (List Char)) : List (List Char) := acc.flatMap fun y => x.map fun z => y ++ z

mutual

/-- `expand` (`url.rs:209-224`). -/
def expand : Seg → List (List Char)
  | .character c => [[c]]
  | .asterisk => [['*']]
  | .questionMark => [['?']]
  | .characterClass negated choices => [expandClass negated choices]
  | .alternation patterns => expandAll patterns

/-- `expand_sequence` (`url.rs:101-110`), with the expansions so far. -/
def expandFrom (acc : List (List Char)) : List Seg → List (List Char)
  | [] => acc
  | seg :: segs => expandFrom (product acc (expand seg)) segs

/-- The expansions of all alternatives (`url.rs:219-222`). -/
def expandAll : List (List Seg) → List (List Char)
  | [] => []
  | p :: ps => expandFrom [[]] p ++ expandAll ps

end

/-- `expand_sequence` (`url.rs:101-110`). -/
def expandSequence (segs : List Seg) : List (List Char) := expandFrom [[]] segs

/-- `expand_glob_pattern` (`url.rs:227-233`). -/
def expandGlob (s : List Char) : Option (List (List Char)) := (parse s).map expandSequence

/-! ## The `glob` crate -/

/-- A token of a pattern of the `glob` crate. -/
inductive Token
  | char (c : Char)
  | anyChar
  | anySequence
  | anyRecursiveSequence
  | anyWithin (cs : List Choice)
  | anyExcept (cs : List Choice)
  deriving DecidableEq, Repr

/-- A class of the crate after `[`: with `!` it is negated, and its first character may be `]`. -/
def bracket (s : List Char) : Option (Token × List Char) :=
  match s with
  | [] => none
  | c :: s =>
    if c = '!' then
      match s with
      | [] => none
      | c :: s =>
        match untilBracket s with
        | (inner, ']' :: rest) => some (.anyExcept (parseChoices (c :: inner)), rest)
        | _ => none
    else
      match untilBracket s with
      | (inner, ']' :: rest) => some (.anyWithin (parseChoices (c :: inner)), rest)
      | _ => none

/-- `Pattern::new` of the crate on the characters after `prev`, `none` if it refuses the pattern. More than two asterisks
are refused; two must be a whole component of the path, and several such components in a row are not merged here,
which matches the same. `fuel` bounds the number of tokens. -/
def tokens : Nat → Option Char → List Char → Option (List Token)
  | 0, _, _ => none
  | _ + 1, _, [] => some []
  | n + 1, _, '?' :: s => (tokens n (some '?') s).map (.anyChar :: ·)
  | n + 1, prev, '*' :: s =>
    match s with
    | '*' :: '*' :: _ => none
    | '*' :: s =>
      if prev = none ∨ prev = some '/' then
        match s with
        | [] => some [.anyRecursiveSequence]
        | '/' :: s => (tokens n (some '/') s).map (.anyRecursiveSequence :: ·)
        | _ => none
      else none
    | s => (tokens n (some '*') s).map (.anySequence :: ·)
  | n + 1, _, '[' :: s =>
    match bracket s with
    | none => none
    | some (tok, rest) => (tokens n (some ']') rest).map (tok :: ·)
  | n + 1, _, c :: s => (tokens n (some c) s).map (.char c :: ·)

/-- `Pattern::new`. -/
def patternNew (s : List Char) : Option (List Token) := tokens (s.length + 1) none s

/-- A character is among the choices (`in_char_specifiers` of the crate). -/
def Choice.has (c : Char) : Choice → Bool
  | .single d => c = d
  | .range first last => decide (first ≤ c ∧ c ≤ last)

/-- `Pattern::matches` of the crate with its default options. Two asterisks match whole components. -/
def Match : List Token → List Char → Prop
  | [], s => s = []
  | .char c :: ts, s => ∃ r, s = c :: r ∧ Match ts r
  | .anyChar :: ts, s => ∃ c r, s = c :: r ∧ Match ts r
  | .anySequence :: ts, s => ∃ u r, s = u ++ r ∧ Match ts r
  | .anyRecursiveSequence :: ts, s => ∃ u r, s = u ++ r ∧ (u = [] ∨ u.getLast? = some '/') ∧ Match ts r
  | .anyWithin cs :: ts, s => ∃ c r, s = c :: r ∧ (cs.any (Choice.has c) = true) ∧ Match ts r
  | .anyExcept cs :: ts, s => ∃ c r, s = c :: r ∧ (cs.any (Choice.has c) = false) ∧ Match ts r

/-! ## The division of a path -/

/-- The loop of `split_glob_path` (`url.rs:453-479`) with `prefix` and `part`. -/
def splitLoop : List Char → List Char → List Char → List Char × List Char
  | pre, part, [] => (pre ++ part, [])
  | pre, part, c :: s =>
    if c = '/' || c = '\\' then splitLoop (pre ++ part ++ [c]) [] s
    else if c = '*' || c = '?' || c = '[' then (pre, part ++ c :: s)
    else splitLoop pre (part ++ [c]) s

/-- `split_glob_path` (`url.rs:453-482`), `none` if the path before the pattern is empty. -/
def splitGlobPath (s : List Char) : Option (List Char × List Char) :=
  let r := splitLoop [] [] s
  if r.1.isEmpty then none else some r

end Verif.Io.Glob
