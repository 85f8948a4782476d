import Verif.Sql.Name
import Verif.Sql.Display
import Verif.Sql.NumberValue

/-!
# Schemas as DDL texts

`sail-spark-connect/src/schema.rs:217-420` prints a schema of the client protocol,
`sail-spark-connect/src/proto/data_type.rs:27-46` reads such a text with the SQL parser
(`sail-sql-parser/src/ast/data_type.rs`, `sail-sql-analyzer/src/data_type.rs`), and
`proto/data_type.rs:48-290` converts a schema of the protocol without going through text.
-/

namespace Verif.Sql.Ddl

/-! ## Types of the protocol -/

mutual
/-- `sc::DataType` (the messages of `spark/connect/types.proto`). `missing` is an absent `kind` or an absent
nested type. Fields of intervals are numbers, as in the protocol. A user defined type keeps whether it is
printed as a Python type. -/
inductive DT
  | missing
  | null | binary | boolean | byte | short | integer | long | float | double
  | decimal (precision scale : Option Int)
  | string
  | char (length : Int)
  | varchar (length : Int)
  | date | timestamp | timestampNtz | calendar
  | yearMonth (start stop : Option Int)
  | dayTime (start stop : Option Int)
  | array (element : DT) (nullable : Bool)
  | struct (fields : Fields)
  | map (key value : DT) (nullable : Bool)
  | variant
  | udt (python : Bool) (sql : DT)
  | geometry (srid : Int)
  | geography (srid : Int)
  | unparsed (text : Text)
  | time (precision : Option Int)

/-- The fields of a structure, with name, type, whether the field can be NULL, and metadata (absent also
if the text of the metadata is blank). -/
inductive Fields
  | nil
  | cons (name : Text) (type : DT) (nullable : Bool) (metadata : Option Text) (rest : Fields)
end

/-! ## Types of plans -/

/-- `spec::IntervalFieldType`. -/
inductive IField
  | year | month | day | hour | minute | second
  deriving DecidableEq, Repr

/-- The derived order of `spec::IntervalFieldType`. -/
def IField.index : IField → Nat
  | .year => 0 | .month => 1 | .day => 2 | .hour => 3 | .minute => 4 | .second => 5

/-- `spec::IntervalUnit`. -/
inductive IUnit
  | yearMonth | dayTime | monthDayNano
  deriving DecidableEq, Repr

/-- `spec::TimeUnit`. -/
inductive TUnit
  | second | milli | micro | nano
  deriving DecidableEq, Repr

/-- `spec::TimestampType`. -/
inductive Zone
  | configured | without | withLocal
  deriving DecidableEq, Repr

mutual
/-- `spec::DataType`, as far as texts and the protocol give it. `decimal` is `Decimal256` if `big`, else
`Decimal128`. `time` is `Time32` for seconds and milliseconds, else `Time64`. The algorithm of `geography`
is always the same. -/
inductive ST
  | null | boolean
  | int (signed : Bool) (bits : Nat)
  | binary | float32 | float64
  | decimal (big : Bool) (precision scale : Int)
  | string
  | char (length : Int)
  | varchar (length : Int)
  | text
  | timestamp (unit : TUnit) (zone : Zone)
  | date32 | date64
  | time (unit : TUnit)
  | interval (unit : IUnit) (start stop : Option IField)
  | list (element : ST) (nullable : Bool)
  | struct (fields : SFields)
  | map (key value : ST) (nullable : Bool)
  | geometry (srid : Int)
  | geography (srid : Int)
  | variant
  | udt (python : Bool) (sql : ST)

/-- `spec::Fields`. -/
inductive SFields
  | nil
  | cons (name : Text) (type : ST) (nullable : Bool) (metadata : Option Text) (rest : SFields)
end

/-! ## Printing -/

/-- `needs_quoting` (`schema.rs:219-223`). -/
def needsQuoting (name : Text) : Bool :=
  name.isEmpty || (match name.head? with | some c => c.isDigit | none => false) ||
    !name.all (fun c => c.isAlphanum || c == '_')

/-- `quote_field_name` (`schema.rs:225-233`). -/
def quoteFieldName (name : Text) : Text :=
  if needsQuoting name then '`' :: doubleTicks name ++ ['`'] else name

/-- `format_year_month_interval_field_name` (`schema.rs:235-241`). -/
def yearMonthName (n : Int) : Text :=
  if n = 0 then ['Y', 'E', 'A', 'R'] else if n = 1 then ['M', 'O', 'N', 'T', 'H'] else ['?']

/-- `format_day_time_interval_field_name` (`schema.rs:243-251`). -/
def dayTimeName (n : Int) : Text :=
  if n = 0 then ['D', 'A', 'Y'] else if n = 1 then ['H', 'O', 'U', 'R']
  else if n = 2 then ['M', 'I', 'N', 'U', 'T', 'E'] else if n = 3 then ['S', 'E', 'C', 'O', 'N', 'D'] else ['?']

/-- `INTERVAL`. -/
def intervalWord : Text := ['I', 'N', 'T', 'E', 'R', 'V', 'A', 'L']

/-- The two matches on the fields of an interval (`schema.rs:297-339`), which differ in the names only. -/
def intervalText (name : Int → Text) : Option Int → Option Int → Text
  | some s, some e =>
    intervalWord ++ ' ' :: name s ++ (if s ≠ e then [' ', 'T', 'O', ' '] ++ name e else [])
  | some s, none => intervalWord ++ ' ' :: name s
  | none, some e => intervalWord ++ [' ', '?', ' ', 'T', 'O', ' '] ++ name e
  | none, none => intervalWord

/-- A number, or a question mark (`schema.rs:268-280`). -/
def optText : Option Int → Text
  | some n => intText n
  | none => ['?']

/-- ` NOT NULL` if the field cannot be NULL. -/
def notNullText (nullable : Bool) : Text :=
  if nullable then [] else [' ', 'N', 'O', 'T', ' ', 'N', 'U', 'L', 'L']

mutual
/-- `format_ddl_type` (`schema.rs:253-391`). -/
def typeText : DT → Option Text
  | .missing => none
  | .null => some ['N', 'U', 'L', 'L']
  | .binary => some ['B', 'I', 'N', 'A', 'R', 'Y']
  | .boolean => some ['B', 'O', 'O', 'L', 'E', 'A', 'N']
  | .byte => some ['T', 'I', 'N', 'Y', 'I', 'N', 'T']
  | .short => some ['S', 'H', 'O', 'R', 'T']
  | .integer => some ['I', 'N', 'T']
  | .long => some ['B', 'I', 'G', 'I', 'N', 'T']
  | .float => some ['F', 'L', 'O', 'A', 'T']
  | .double => some ['D', 'O', 'U', 'B', 'L', 'E']
  | .decimal p s => some (['D', 'E', 'C', 'I', 'M', 'A', 'L', '('] ++ optText p ++ ',' :: optText s ++ [')'])
  | .string => some ['S', 'T', 'R', 'I', 'N', 'G']
  | .char n => some (['C', 'H', 'A', 'R', '('] ++ intText n ++ [')'])
  | .varchar n => some (['V', 'A', 'R', 'C', 'H', 'A', 'R', '('] ++ intText n ++ [')'])
  | .date => some ['D', 'A', 'T', 'E']
  | .timestamp => some ['T', 'I', 'M', 'E', 'S', 'T', 'A', 'M', 'P']
  | .timestampNtz => some ['T', 'I', 'M', 'E', 'S', 'T', 'A', 'M', 'P', '_', 'N', 'T', 'Z']
  | .calendar => some intervalWord
  | .yearMonth s e => some (intervalText yearMonthName s e)
  | .dayTime s e => some (intervalText dayTimeName s e)
  | .array t _ =>
    match typeText t with
    | none => none
    | some x => some (['A', 'R', 'R', 'A', 'Y', '<'] ++ x ++ ['>'])
  | .struct fs =>
    match fieldsText [':', ' '] true fs with
    | none => none
    | some x => some (['S', 'T', 'R', 'U', 'C', 'T', '<'] ++ x ++ ['>'])
  | .map k v _ =>
    match typeText k with
    | none => none
    | some x =>
      match typeText v with
      | none => none
      | some y => some (['M', 'A', 'P', '<'] ++ x ++ [',', ' '] ++ y ++ ['>'])
  | .variant => some ['V', 'A', 'R', 'I', 'A', 'N', 'T']
  | .udt python _ =>
    some ((if python then ['P', 'Y', 'T', 'H', 'O', 'N'] else []) ++ ['U', 'S', 'E', 'R', 'D', 'E', 'F', 'I', 'N', 'E', 'D'])
  | .geometry _ => some ['G', 'E', 'O', 'M', 'E', 'T', 'R', 'Y']
  | .geography _ => some ['G', 'E', 'O', 'G', 'R', 'A', 'P', 'H', 'Y']
  | .unparsed s => some s
  | .time (some p) => some (['T', 'I', 'M', 'E', '('] ++ intText p ++ [')'])
  | .time none => some ['T', 'I', 'M', 'E']

/-- The loop over fields (`schema.rs:345-357,401-412`), with what is between name and type, and whether this is
the first field. -/
def fieldsText (sep : Text) (first : Bool) : Fields → Option Text
  | .nil => some []
  | .cons name t nullable _ rest =>
    match typeText t with
    | none => none
    | some x =>
      match fieldsText sep false rest with
      | none => none
      | some y =>
        some ((if first then [] else [',', ' ']) ++ quoteFieldName name ++ sep ++ x ++ notNullText nullable ++ y)
end

/-- `to_ddl_string` (`schema.rs:393-420`). -/
def ddlText : DT → Option Text
  | .missing => some []
  | .struct fs => fieldsText [' '] true fs
  | t => typeText t

/-! ## Reading -/

/-- The keyword of a word (`token.rs:266-269`): compared in upper case. Upper case is that of ASCII here. -/
def kw (w : Text) : Text := w.map Char.toUpper

/-- `parse_keyword` (`keywords.rs:13-38`). The white space after each token is skipped by every terminal parser
(`utils.rs:18-31`), and no token of this grammar depends on white space, so the tokens come without it. -/
def expectK (k : Text) : List Tok → Option (List Tok)
  | .word w :: r => if kw w = k then some r else none
  | _ => none

/-- `parse_operator` (`operator.rs:14-40`) for operators of one character. -/
def expectP (c : Char) : List Tok → Option (List Tok)
  | .punct d :: r => if d = c then some r else none
  | _ => none

/-- `parse::<i64>` of a word after the sign. -/
def number (neg : Bool) (w : Text) : Option Int :=
  if w ≠ [] ∧ w.all Char.isDigit then
    if neg then (if digitsVal w ≤ 9223372036854775808 then some (-(digitsVal w : Int)) else none)
    else if digitsVal w < 9223372036854775808 then some (digitsVal w : Int) else none
  else none

/-- `IntegerLiteral` (`literal.rs:239-278`). -/
def intLit : List Tok → Option (Int × List Tok)
  | .word w :: r =>
    match number false w with
    | none => none
    | some v => some (v, r)
  | .punct c :: .word w :: r =>
    if c = '-' then
      match number true w with
      | none => none
      | some v => some (v, r)
    else none
  | _ => none

/-- `(LeftParenthesis, IntegerLiteral, RightParenthesis)`. -/
def paren (ts : List Tok) : Option (Int × List Tok) :=
  match expectP '(' ts with
  | none => none
  | some r =>
    match intLit r with
    | none => none
    | some (v, r') =>
      match expectP ')' r' with
      | none => none
      | some r'' => some (v, r'')

/-- The same, optional. -/
def optParen (ts : List Tok) : Option Int × List Tok :=
  match paren ts with
  | none => (none, ts)
  | some (v, r) => (some v, r)

/-- `Option<(Comma, IntegerLiteral)>`. -/
def optScale (ts : List Tok) : Option Int × List Tok :=
  match expectP ',' ts with
  | none => (none, ts)
  | some r =>
    match intLit r with
    | none => (none, ts)
    | some (v, r') => (some v, r')

/-- The arguments of `DECIMAL` (`data_type.rs:50-58` of the parser). -/
def decimalArgs (ts : List Tok) : Option (Int × Option Int) × List Tok :=
  match expectP '(' ts with
  | none => (none, ts)
  | some r =>
    match intLit r with
    | none => (none, ts)
    | some (p, r') =>
      match expectP ')' (optScale r').2 with
      | none => (none, ts)
      | some r'' => (some (p, (optScale r').1), r'')

/-- The conversion of `DECIMAL` (`data_type.rs:103-132` of the analyzer): the precision is an `u8`, the scale
an `i8`. -/
def decimalType (p s : Int) : Option ST :=
  if 0 ≤ p ∧ p < 256 ∧ -128 ≤ s ∧ s < 128 then some (.decimal (decide (38 < p)) p s) else none

/-- `from_ast_char_length` (`data_type.rs:15-23`): the length is an `u32`. -/
def lengthOf (n : Int) : Option Int := if 0 ≤ n ∧ n < 4294967296 then some n else none

/-- `from_ast_timestamp_precision` and `from_ast_time_precision` (`data_type.rs:45-69`). -/
def unitOf : Option Int → Option TUnit
  | none => some .micro
  | some p =>
    if p = 0 then some .second else if p = 3 then some .milli else if p = 6 then some .micro
    else if p = 9 then some .nano else none

/-- `TimezoneType`, optional (`data_type.rs:161-166` of the parser, `data_type.rs:151-160` of the analyzer). -/
def zoneOf (ts : List Tok) : Zone × List Tok :=
  match expectK ['W', 'I', 'T', 'H'] ts with
  | some r =>
    match expectK ['T', 'I', 'M', 'E'] r with
    | some r' =>
      match expectK ['Z', 'O', 'N', 'E'] r' with
      | some r'' => (.withLocal, r'')
      | none => (.configured, ts)
    | none =>
      match expectK ['L', 'O', 'C', 'A', 'L'] r with
      | none => (.configured, ts)
      | some r' =>
        match expectK ['T', 'I', 'M', 'E'] r' with
        | none => (.configured, ts)
        | some r'' =>
          match expectK ['Z', 'O', 'N', 'E'] r'' with
          | none => (.configured, ts)
          | some r3 => (.withLocal, r3)
  | none =>
    match expectK ['W', 'I', 'T', 'H', 'O', 'U', 'T'] ts with
    | none => (.configured, ts)
    | some r =>
      match expectK ['T', 'I', 'M', 'E'] r with
      | none => (.configured, ts)
      | some r' =>
        match expectK ['Z', 'O', 'N', 'E'] r' with
        | none => (.configured, ts)
        | some r'' => (.without, r'')

/-- `IntervalYearMonthUnit`. -/
def yearMonthField : List Tok → Option (IField × List Tok)
  | .word w :: r =>
    if kw w = ['Y', 'E', 'A', 'R'] then some (.year, r)
    else if kw w = ['M', 'O', 'N', 'T', 'H'] then some (.month, r) else none
  | _ => none

/-- `IntervalDayTimeUnit`. -/
def dayTimeField : List Tok → Option (IField × List Tok)
  | .word w :: r =>
    if kw w = ['D', 'A', 'Y'] then some (.day, r)
    else if kw w = ['H', 'O', 'U', 'R'] then some (.hour, r)
    else if kw w = ['M', 'I', 'N', 'U', 'T', 'E'] then some (.minute, r)
    else if kw w = ['S', 'E', 'C', 'O', 'N', 'D'] then some (.second, r) else none
  | _ => none

/-- `Option<(To, unit)>`. -/
def toField (unit : List Tok → Option (IField × List Tok)) (ts : List Tok) : Option IField × List Tok :=
  match expectK ['T', 'O'] ts with
  | none => (none, ts)
  | some r =>
    match unit r with
    | none => (none, ts)
    | some (f, r') => (some f, r')

/-- The check of the end field (`data_type.rs:186-190,203-207`). -/
def intervalType (u : IUnit) (s : IField) (e : Option IField) : Option ST :=
  match e with
  | none => some (.interval u (some s) none)
  | some e => if e.index ≤ s.index then none else some (.interval u (some s) (some e))

/-- `IntervalType` after the word `INTERVAL` (`data_type.rs:131-144` of the parser, `:178-218` of the analyzer). -/
def intervalRest (ts : List Tok) : Option (ST × List Tok) :=
  match yearMonthField ts with
  | some (s, r) =>
    match intervalType .yearMonth s (toField yearMonthField r).1 with
    | none => none
    | some t => some (t, (toField yearMonthField r).2)
  | none =>
    match dayTimeField ts with
    | some (s, r) =>
      match intervalType .dayTime s (toField dayTimeField r).1 with
      | none => none
      | some t => some (t, (toField dayTimeField r).2)
    | none => some (.interval .monthDayNano none none, ts)

/-- The integer types that can follow `UNSIGNED` (`data_type.rs:25-32` of the parser). -/
def intWord (k : Text) : Option Nat :=
  if k = ['T', 'I', 'N', 'Y', 'I', 'N', 'T'] then some 8
  else if k = ['S', 'M', 'A', 'L', 'L', 'I', 'N', 'T'] then some 16
  else if k = ['I', 'N', 'T'] then some 32
  else if k = ['B', 'I', 'G', 'I', 'N', 'T'] then some 64
  else if k = ['B', 'Y', 'T', 'E'] then some 8
  else if k = ['S', 'H', 'O', 'R', 'T'] then some 16
  else if k = ['I', 'N', 'T', 'E', 'G', 'E', 'R'] then some 32
  else if k = ['L', 'O', 'N', 'G'] then some 64
  else none

/-- An integer type after `UNSIGNED` (`data_type.rs:86-101` of the analyzer). -/
def unsignedRest : List Tok → Option (ST × List Tok)
  | .word w :: r =>
    match intWord (kw w) with
    | none => none
    | some k => some (.int false k, r)
  | _ => none

/-- What the first keyword of a type leads to. -/
inductive Head
  | simple (t : ST)
  | unsigned | decimal | char | varchar | timestamp | ntz | ltz | time | interval | array | struct | map
  | geometry | geography
  | other

/-- The alternatives of `DataType` (`data_type.rs:20-113` of the parser), which begin with different keywords,
and the types of those that are a single keyword (`data_type.rs:71-102,144-149,174-177,296`). -/
def headOf (k : Text) : Head :=
  match intWord k with
  | some n => .simple (.int true n)
  | none =>
    if k = ['N', 'U', 'L', 'L'] then .simple .null
    else if k = ['V', 'O', 'I', 'D'] then .simple .null
    else if k = ['B', 'O', 'O', 'L', 'E', 'A', 'N'] then .simple .boolean
    else if k = ['B', 'O', 'O', 'L'] then .simple .boolean
    else if k = ['I', 'N', 'T', '8'] then .simple (.int true 8)
    else if k = ['I', 'N', 'T', '1', '6'] then .simple (.int true 16)
    else if k = ['I', 'N', 'T', '3', '2'] then .simple (.int true 32)
    else if k = ['I', 'N', 'T', '6', '4'] then .simple (.int true 64)
    else if k = ['U', 'I', 'N', 'T', '8'] then .simple (.int false 8)
    else if k = ['U', 'I', 'N', 'T', '1', '6'] then .simple (.int false 16)
    else if k = ['U', 'I', 'N', 'T', '3', '2'] then .simple (.int false 32)
    else if k = ['U', 'I', 'N', 'T', '6', '4'] then .simple (.int false 64)
    else if k = ['B', 'I', 'N', 'A', 'R', 'Y'] then .simple .binary
    else if k = ['B', 'Y', 'T', 'E', 'A'] then .simple .binary
    else if k = ['F', 'L', 'O', 'A', 'T'] then .simple .float32
    else if k = ['R', 'E', 'A', 'L'] then .simple .float32
    else if k = ['D', 'O', 'U', 'B', 'L', 'E'] then .simple .float64
    else if k = ['F', 'L', 'O', 'A', 'T', '3', '2'] then .simple .float32
    else if k = ['F', 'L', 'O', 'A', 'T', '6', '4'] then .simple .float64
    else if k = ['S', 'T', 'R', 'I', 'N', 'G'] then .simple .string
    else if k = ['T', 'E', 'X', 'T'] then .simple .text
    else if k = ['D', 'A', 'T', 'E'] then .simple .date32
    else if k = ['D', 'A', 'T', 'E', '3', '2'] then .simple .date32
    else if k = ['D', 'A', 'T', 'E', '6', '4'] then .simple .date64
    else if k = ['V', 'A', 'R', 'I', 'A', 'N', 'T'] then .simple .variant
    else if k = ['U', 'N', 'S', 'I', 'G', 'N', 'E', 'D'] then .unsigned
    else if k = ['D', 'E', 'C', 'I', 'M', 'A', 'L'] ∨ k = ['D', 'E', 'C'] ∨ k = ['N', 'U', 'M', 'E', 'R', 'I', 'C'] then .decimal
    else if k = ['C', 'H', 'A', 'R'] ∨ k = ['C', 'H', 'A', 'R', 'A', 'C', 'T', 'E', 'R'] then .char
    else if k = ['V', 'A', 'R', 'C', 'H', 'A', 'R'] then .varchar
    else if k = ['T', 'I', 'M', 'E', 'S', 'T', 'A', 'M', 'P'] then .timestamp
    else if k = ['T', 'I', 'M', 'E', 'S', 'T', 'A', 'M', 'P', '_', 'N', 'T', 'Z'] then .ntz
    else if k = ['T', 'I', 'M', 'E', 'S', 'T', 'A', 'M', 'P', '_', 'L', 'T', 'Z'] then .ltz
    else if k = ['T', 'I', 'M', 'E'] then .time
    else if k = ['I', 'N', 'T', 'E', 'R', 'V', 'A', 'L'] then .interval
    else if k = ['A', 'R', 'R', 'A', 'Y'] then .array
    else if k = ['S', 'T', 'R', 'U', 'C', 'T'] then .struct
    else if k = ['M', 'A', 'P'] then .map
    else if k = ['G', 'E', 'O', 'M', 'E', 'T', 'R', 'Y'] then .geometry
    else if k = ['G', 'E', 'O', 'G', 'R', 'A', 'P', 'H', 'Y'] then .geography
    else .other

/-- `(LeftParenthesis, srid, RightParenthesis)` (`data_type.rs:108-125` of the parser): a number, cut to 32 bits
(`data_type.rs:276-293` of the analyzer), or `ANY`. -/
def sridArg (ts : List Tok) : Option (Int × List Tok) :=
  match expectP '(' ts with
  | none => none
  | some r =>
    match intLit r with
    | some (v, r') =>
      match expectP ')' r' with
      | none => none
      | some r'' => some ((v + 2147483648) % 4294967296 - 2147483648, r'')
    | none =>
      match expectK ['A', 'N', 'Y'] r with
      | none => none
      | some r' =>
        match expectP ')' r' with
        | none => none
        | some r'' => some (-1, r'')

/-- `Option<(Not, Null)>`: whether it is there, and the rest. -/
def notNull (ts : List Tok) : Bool × List Tok :=
  match expectK ['N', 'O', 'T'] ts with
  | none => (false, ts)
  | some r =>
    match expectK ['N', 'U', 'L', 'L'] r with
    | none => (false, ts)
    | some r' => (true, r')

/-- `Option<Colon>`. -/
def optColon (ts : List Tok) : List Tok :=
  match expectP ':' ts with
  | none => ts
  | some r => r

/-- `Ident` (`identifier.rs:18-79`) on tokens without white space. -/
def ident : List Tok → Option (Text × List Tok)
  | .word raw :: ts => some (raw, ts)
  | .str raw .backtick :: ts =>
    match parseStr .backtick raw with
    | .valid v none => some (v, ts)
    | _ => none
  | _ => none

mutual
/-- The parser of `DataType` and its conversion (`data_type.rs:20-113` of the parser, `data_type.rs:71-300` of
the analyzer), with a bound on the depth. The conversion is done here at once: where it fails, the
alternatives that the parser would still try all fail too, as they need another first token. -/
def parseType : Nat → List Tok → Option (ST × List Tok)
  | n + 1, .word w :: r =>
    match headOf (kw w) with
    | .simple t => some (t, r)
    | .unsigned => unsignedRest r
    | .decimal =>
      match (decimalArgs r).1 with
      | none => some (.decimal false 10 0, (decimalArgs r).2)
      | some (p, s) =>
        match decimalType p (s.getD 0) with
        | none => none
        | some t => some (t, (decimalArgs r).2)
    | .char =>
      match (optParen r).1 with
      | none => none
      | some v =>
        match lengthOf v with
        | none => none
        | some v => some (.char v, (optParen r).2)
    | .varchar =>
      match paren r with
      | none => none
      | some (v, r') =>
        match lengthOf v with
        | none => none
        | some v => some (.varchar v, r')
    | .timestamp =>
      match unitOf (optParen r).1 with
      | none => none
      | some u => some (.timestamp u (zoneOf (optParen r).2).1, (zoneOf (optParen r).2).2)
    | .ntz =>
      match unitOf (optParen r).1 with
      | none => none
      | some u => some (.timestamp u .without, (optParen r).2)
    | .ltz =>
      match unitOf (optParen r).1 with
      | none => none
      | some u => some (.timestamp u .withLocal, (optParen r).2)
    | .time =>
      match unitOf (optParen r).1 with
      | none => none
      | some u => some (.time u, (optParen r).2)
    | .interval => intervalRest r
    | .array =>
      match expectP '<' r with
      | none => none
      | some r1 =>
        match parseType n r1 with
        | none => none
        | some (t, r2) =>
          match expectP '>' r2 with
          | none => none
          | some r3 => some (.list t true, r3)
    | .struct =>
      match expectP '<' r with
      | none => none
      | some r1 =>
        match parseFields n r1 with
        | none =>
          match expectP '>' r1 with
          | none => none
          | some r3 => some (.struct .nil, r3)
        | some (fs, r2) =>
          match expectP '>' r2 with
          | none => none
          | some r3 => some (.struct fs, r3)
    | .map =>
      match expectP '<' r with
      | none => none
      | some r1 =>
        match parseType n r1 with
        | none => none
        | some (k, r2) =>
          match expectP ',' r2 with
          | none => none
          | some r3 =>
            match parseType n r3 with
            | none => none
            | some (v, r4) =>
              match expectP '>' r4 with
              | none => none
              | some r5 => some (.map k v true, r5)
    | .geometry =>
      match sridArg r with
      | none => none
      | some (v, r') => some (.geometry v, r')
    | .geography =>
      match sridArg r with
      | none => none
      | some (v, r') => some (.geography v, r')
    | .other => none
  | _, _ => none

/-- `sequence` of `StructField` (`combinator.rs:12-28`, `data_type.rs:168-177` of the parser, `:231-262` of the
analyzer). A comma without a field after it is given back. The clause `COMMENT` is left out. -/
def parseFields : Nat → List Tok → Option (SFields × List Tok)
  | 0, _ => none
  | n + 1, ts =>
    match ident ts with
    | none => none
    | some (name, r) =>
      match parseType n (optColon r) with
      | none => none
      | some (t, r1) =>
        match expectP ',' (notNull r1).2 with
        | none => some (.cons name t (!(notNull r1).1) none .nil, (notNull r1).2)
        | some r2 =>
          match parseFields n r2 with
          | none => some (.cons name t (!(notNull r1).1) none .nil, (notNull r1).2)
          | some (fs, r3) => some (.cons name t (!(notNull r1).1) none fs, r3)
end

/-- `parse_data_type` and `from_ast_data_type` (`sail-sql-analyzer/src/parser.rs:31-46,76-78`). -/
def parseDataType (uni : Char → Bool) (s : Text) : Option ST :=
  match lex uni s with
  | none => none
  | some ts =>
    match parseType (ts.filter (!·.isWhitespace)).length (ts.filter (!·.isWhitespace)) with
    | some (t, []) => some t
    | _ => none

/-- `parse_spark_data_type` (`proto/data_type.rs:27-46`) without the attempt to read JSON, which comes last. -/
def parseSparkDataType (uni : Char → Bool) (s : Text) : Option ST :=
  match parseDataType uni s with
  | some t => some t
  | none =>
    match parseDataType uni (['s', 't', 'r', 'u', 'c', 't', '<'] ++ s ++ ['>']) with
    | some (.struct .nil) => none
    | some t => some t
    | none => none

/-! ## The direct conversion -/

/-- `YearMonthIntervalField::try_from` and the conversion to `IntervalFieldType`, optional, with a default. -/
def yearMonthOf : Option Int → IField → Option IField
  | none, d => some d
  | some n, _ => if n = 0 then some .year else if n = 1 then some .month else none

/-- The same for `DayTimeIntervalField`. -/
def dayTimeOf : Option Int → IField → Option IField
  | none, d => some d
  | some n, _ =>
    if n = 0 then some .day else if n = 1 then some .hour else if n = 2 then some .minute
    else if n = 3 then some .second else none

mutual
/-- `TryFrom<DataType> for spec::DataType` (`proto/data_type.rs:74-290`). -/
def toSpec (uni : Char → Bool) : DT → Option ST
  | .missing => none
  | .null => some .null
  | .binary => some .binary
  | .boolean => some .boolean
  | .byte => some (.int true 8)
  | .short => some (.int true 16)
  | .integer => some (.int true 32)
  | .long => some (.int true 64)
  | .float => some .float32
  | .double => some .float64
  | .decimal p s => decimalType (p.getD 10) (s.getD 0)
  | .string => some .string
  | .char n => if 0 ≤ n then some (.char n) else none
  | .varchar n => if 0 ≤ n then some (.varchar n) else none
  | .date => some .date32
  | .timestamp => some (.timestamp .micro .withLocal)
  | .timestampNtz => some (.timestamp .micro .without)
  | .calendar => some (.interval .monthDayNano none none)
  | .yearMonth s e =>
    match yearMonthOf s .year with
    | none => none
    | some s =>
      match yearMonthOf e .month with
      | none => none
      | some e => some (.interval .yearMonth (some s) (some e))
  | .dayTime s e =>
    match dayTimeOf s .day with
    | none => none
    | some s =>
      match dayTimeOf e .second with
      | none => none
      | some e => some (.interval .dayTime (some s) (some e))
  | .array t nullable =>
    match toSpec uni t with
    | none => none
    | some t => some (.list t nullable)
  | .struct fs =>
    match toSpecs uni fs with
    | none => none
    | some fs => some (.struct fs)
  | .map k v nullable =>
    match toSpec uni k with
    | none => none
    | some k =>
      match toSpec uni v with
      | none => none
      | some v => some (.map k v nullable)
  | .variant => some .variant
  | .udt python t =>
    match toSpec uni t with
    | none => none
    | some t => some (.udt python t)
  | .geometry srid => some (.geometry srid)
  | .geography srid => some (.geography srid)
  | .unparsed s => parseSparkDataType uni s
  | .time p =>
    match unitOf (some (p.getD 6)) with
    | none => none
    | some u => some (.time u)

/-- The fields of a structure (`proto/data_type.rs:48-71`). -/
def toSpecs (uni : Char → Bool) : Fields → Option SFields
  | .nil => some .nil
  | .cons name t nullable metadata rest =>
    match toSpec uni t with
    | none => none
    | some t =>
      match toSpecs uni rest with
      | none => none
      | some rest => some (.cons name t nullable metadata rest)
end

end Verif.Sql.Ddl
