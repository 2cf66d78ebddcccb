/-
Filter pushdown to remote tables: the spelling of literals and identifiers.

Modelled: /repo/datafusion_remote_tables/src/filter_pushdown.rs 50-109 (`col_to_sql`,
`scalar_value_to_sql`), 146-248 (the format strings, `quote_identifier_…`), and
/repo/datafusion_remote_tables/src/provider.rs 130-145 (the column list of a scan).

Text is a list of characters.  The second half is the lexer of the remote database; of
comments it knows MySQL's `#` to the end of the text.
-/
import Verif.Remote.Pushdown

namespace Seafowl.Remote

abbrev Str := List Char

/-- `str::replace(q, qq)`. -/
def dbl (q : Char) : Str → Str
  | [] => []
  | c :: s => if c = q then q :: q :: dbl q s else c :: dbl q s

/-- `quote_identifier_double_quotes` and `quote_identifier_backticks` (242-248). -/
def quoteDouble (name : Str) : Str := '"' :: dbl '"' name ++ ['"']
def quoteBackticks (name : Str) : Str := '`' :: dbl '`' name ++ ['`']

/-- `col_to_sql` (51-53, 68-70): the qualifier of the column is dropped. -/
def colToSql : Dialect → Str → Str
  | .mysql, name => quoteBackticks name
  | _, name => quoteDouble name

/-- `ScalarValue`, by the way it is converted.  `stamp` is a date or a timestamp without a time zone,
with what `chrono` makes of it; `other` is every other kind with what its `Display` makes of it. -/
inductive Scalar where
  | utf8 (v : Option Str)
  | stamp (formatted : Option Str)
  | tz
  | int (v : Option Int)
  | bool (v : Option Bool)
  | other (display : Str)
  deriving DecidableEq

/-- Decimal digits. -/
def dec (n : Nat) : Str :=
  if n < 10 then [Char.ofNat (48 + n)] else dec (n / 10) ++ [Char.ofNat (48 + n % 10)]
termination_by n
decreasing_by omega

def decInt (i : Int) : Str := if i < 0 then '-' :: dec i.natAbs else dec i.natAbs

/-- `scalar_value_to_sql` (72-104). -/
def scalarToSql : Scalar → Option Str
  | .utf8 (some v) => some ('\'' :: dbl '\'' v ++ ['\''])
  | .utf8 none => some "NULL".toList
  | .stamp (some t) => some ('\'' :: t ++ ['\''])
  | .stamp none => none
  | .tz => none
  | .int (some i) => some (decInt i)
  | .int none => some "NULL".toList
  | .bool (some b) => some (if b then "true".toList else "false".toList)
  | .bool none => some "NULL".toList
  | .other t => some t

/-- `join(", ")` and parentheses on text. -/
def joinStr : List Str → Str
  | [] => []
  | [s] => s
  | s :: t :: rest => s ++ ',' :: ' ' :: joinStr (t :: rest)

def wrapStr (b : Bool) (s : Str) : Str := if b then '(' :: s ++ [')'] else s

def IsKind.text : IsKind → List Str
  | .null => ["IS".toList, "NULL".toList]
  | .notNull => ["IS".toList, "NOT".toList, "NULL".toList]
  | .true => ["IS".toList, "TRUE".toList]
  | .false => ["IS".toList, "FALSE".toList]
  | .notTrue => ["IS".toList, "NOT".toList, "TRUE".toList]
  | .notFalse => ["IS".toList, "NOT".toList, "FALSE".toList]

/-- Words after a space each. -/
def spaced : List Str → Str
  | [] => []
  | w :: ws => ' ' :: w ++ spaced ws

/-- The words of an operator, spelled as in `Op.text` and `opToSql`. -/
def opWords (d : Dialect) (o : Op) : List Str :=
  match d, o with
  | .mysql, .regexMatch => ["RLIKE".toList]
  | .mysql, .regexNotMatch => ["NOT".toList, "RLIKE".toList]
  | .mysql, .bitXor => ["^".toList]
  | _, .distinct => ["IS".toList, "DISTINCT".toList, "FROM".toList]
  | _, .notDistinct => ["IS".toList, "NOT".toList, "DISTINCT".toList, "FROM".toList]
  | _, o => [o.text.toList]

mutual
/-- The text of a filter: the format strings of `f_up` (146-239) applied bottom up, which is what the
stack of the visitor amounts to (`C48_visitor`). -/
def text (d : Dialect) (val : Nat → Scalar) : Expr → Str
  | .atom (.col n) => colToSql d n.toList
  | .atom (.lit n) => (scalarToSql (val n)).getD []
  | .atom (.tzTimestamp _) => []
  | .bin o a b => wrapStr (parens o a) (text d val a) ++ spaced (opWords d o) ++
      ' ' :: wrapStr (parens o b) (text d val b)
  | .not a => "NOT".toList ++ ' ' :: text d val a
  | .neg a => '(' :: ("-".toList ++ ' ' :: text d val a) ++ [')']
  | .is k a => text d val a ++ spaced k.text
  | .inList a xs n => text d val a ++ spaced (if n then ["NOT".toList, "IN".toList] else ["IN".toList])
      ++ ' ' :: '(' :: joinStr (textAll d val xs) ++ [')']
  | .unsupported _ => []

def textAll (d : Dialect) (val : Nat → Scalar) : Exprs → List Str
  | .nil => []
  | .cons x xs => text d val x :: textAll d val xs
end

/-- The column list of a scan (provider.rs 136-144). -/
def columnList (d : Dialect) (names : List Str) : Str := joinStr (names.map (colToSql d))

/-! ### The remote lexer -/

inductive Lexeme where
  | str (s : Str)
  | ident (s : Str)
  | word (s : Str)
  | num (n : Nat)
  | sym (s : Str)
  deriving DecidableEq

/-- Where the lexer is; characters collected so far in reverse. -/
inductive LexSt where
  | start
  | str (acc : Str)
  | strQ (acc : Str)
  | esc (acc : Str)
  | id (acc : Str)
  | idQ (acc : Str)
  | word (acc : Str)
  | num (acc : Nat)
  | sym (acc : Str)
  | comment

def isDig (c : Char) : Bool := decide (48 ≤ c.toNat ∧ c.toNat ≤ 57)
def digVal (c : Char) : Nat := c.toNat - 48
def isLet (c : Char) : Bool :=
  decide (65 ≤ c.toNat ∧ c.toNat ≤ 90) || decide (97 ≤ c.toNat ∧ c.toNat ≤ 122) || c == '_'
def isSymC (c : Char) : Bool := "+-*/<>=~!%^&|".toList.contains c

def identQuote : Dialect → Char
  | .mysql => '`'
  | _ => '"'

/-- The first character of a lexeme. -/
def beginLex (d : Dialect) (c : Char) : Option LexSt × List Lexeme :=
  if c = ' ' then (some .start, [])
  else if c = '\'' then (some (.str []), [])
  else if c = identQuote d then (some (.id []), [])
  else if c = '(' ∨ c = ')' ∨ c = ',' then (some .start, [.sym [c]])
  else if isDig c then (some (.num (digVal c)), [])
  else if isLet c then (some (.word [c]), [])
  else if isSymC c then (some (.sym [c]), [])
  else if c = '#' ∧ d = .mysql then (some .comment, [])
  else (none, [])

/-- What a backslash escape in a MySQL string stands for (MySQL manual, 11.1.1), in reverse. -/
def unescape (c : Char) : Str :=
  if c = 'n' then ['\n']
  else if c = 't' then ['\t']
  else if c = 'r' then ['\r']
  else if c = '0' then [Char.ofNat 0]
  else if c = 'b' then [Char.ofNat 8]
  else if c = 'Z' then [Char.ofNat 26]
  else if c = '%' ∨ c = '_' then [c, '\\']
  else [c]

/-- The lexeme an unfinished state amounts to; PostgreSQL rejects empty identifiers. -/
def flush (d : Dialect) : LexSt → Option (List Lexeme)
  | .start => some []
  | .str _ => none
  | .esc _ => none
  | .id _ => none
  | .strQ acc => some [.str acc.reverse]
  | .idQ acc => if d = .postgres ∧ acc = [] then none else some [.ident acc.reverse]
  | .word acc => some [.word acc.reverse]
  | .num n => some [.num n]
  | .sym acc => some [.sym acc.reverse]
  | .comment => some []

/-- Does the character go on with the lexeme? -/
def goOn (d : Dialect) (st : LexSt) (c : Char) : Option LexSt :=
  match st with
  | .start => none
  | .str acc =>
    if c = '\'' then some (.strQ acc)
    else if d = .mysql ∧ c = '\\' then some (.esc acc)
    else some (.str (c :: acc))
  | .strQ acc => if c = '\'' then some (.str ('\'' :: acc)) else none
  | .esc acc => some (.str (unescape c ++ acc))
  | .id acc => if c = identQuote d then some (.idQ acc) else some (.id (c :: acc))
  | .idQ acc => if c = identQuote d then some (.id (identQuote d :: acc)) else none
  | .word acc => if isLet c || isDig c then some (.word (c :: acc)) else none
  | .num n => if isDig c then some (.num (n * 10 + digVal c)) else none
  | .sym acc => if isSymC c then some (.sym (c :: acc)) else none
  | .comment => some .comment

/-- `none` is a lexical error. -/
def lexFrom (d : Dialect) : LexSt → Str → Option (List Lexeme)
  | st, [] => flush d st
  | st, c :: cs =>
    match goOn d st c with
    | some st' => lexFrom d st' cs
    | none =>
      match flush d st, beginLex d c with
      | some out, (some st', out') => (lexFrom d st' cs).map (fun r => out ++ out' ++ r)
      | _, _ => none

def lex (d : Dialect) (s : Str) : Option (List Lexeme) := lexFrom d .start s

end Seafowl.Remote
