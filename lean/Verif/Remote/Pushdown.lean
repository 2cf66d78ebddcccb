/-
Filter pushdown to remote tables: from expressions to SQL text.

Modelled: /repo/datafusion_remote_tables/src/filter_pushdown.rs 13-278 (visitor, converters), and
/repo/datafusion_remote_tables/src/provider.rs 87-104, 150-169 (the WHERE clause of a scan).

SQL text is a list of tokens; how literals and identifiers are spelled is in `Quote.lean`.
`Operator::precedence` and the spelling of operators are DataFusion's.
The second half is the other side: how the remote database reads the text.
-/
namespace Seafowl.Remote

inductive Op where
  | or | and
  | eq | neq | lt | le | gt | ge
  | plus | minus | mul | div | mod
  | regexMatch | regexIMatch | regexNotMatch | regexNotIMatch
  | bitAnd | bitOr | bitXor | concat | distinct | notDistinct
  deriving DecidableEq, Repr

/-- `Operator::precedence` (DataFusion). -/
def Op.prec : Op → Nat
  | .or => 5
  | .and => 10
  | .eq | .neq | .lt | .le | .gt | .ge => 20
  | .plus | .minus => 30
  | .mul | .div | .mod => 40
  | _ => 0

/-- `Display for Operator` (DataFusion). -/
def Op.text : Op → String
  | .or => "OR"
  | .and => "AND"
  | .eq => "="
  | .neq => "!="
  | .lt => "<"
  | .le => "<="
  | .gt => ">"
  | .ge => ">="
  | .plus => "+"
  | .minus => "-"
  | .mul => "*"
  | .div => "/"
  | .mod => "%"
  | .regexMatch => "~"
  | .regexIMatch => "~*"
  | .regexNotMatch => "!~"
  | .regexNotIMatch => "!~*"
  | .bitAnd => "&"
  | .bitOr => "|"
  | .bitXor => "BIT_XOR"
  | .concat => "||"
  | .distinct => "IS DISTINCT FROM"
  | .notDistinct => "IS NOT DISTINCT FROM"

inductive Dialect where
  | postgres | sqlite | mysql
  deriving DecidableEq, Repr

/-- `op_to_sql` of the three converters (37-65, 106-108). -/
def opToSql : Dialect → Op → Option String
  | .postgres, o => some o.text
  | .sqlite, o =>
    match o with
    | .regexMatch | .regexIMatch | .regexNotMatch | .regexNotIMatch | .bitXor => none
    | _ => some o.text
  | .mysql, o =>
    match o with
    | .regexIMatch | .regexNotIMatch => none
    | .regexMatch => some "RLIKE"
    | .regexNotMatch => some "NOT RLIKE"
    | .bitXor => some "^"
    | _ => some o.text

/-- Leaves.  A literal is identified by a number; timestamps with a time zone are not shippable. -/
inductive Atom where
  | col (name : String)
  | lit (n : Nat)
  | tzTimestamp (n : Nat)
  deriving DecidableEq, Repr

/-- `IS NULL`, `IS NOT NULL`, … -/
inductive IsKind where
  | null | notNull | true | false | notTrue | notFalse
  deriving DecidableEq, Repr

mutual
/-- `Expr`: the variants the visitor supports, and the others. -/
inductive Expr where
  | atom (a : Atom)
  | bin (o : Op) (a b : Expr)
  | not (a : Expr)
  | neg (a : Expr)
  | is (k : IsKind) (a : Expr)
  | inList (a : Expr) (xs : Exprs) (negated : Bool)
  | unsupported (n : Nat)

/-- A list of expressions. -/
inductive Exprs where
  | nil
  | cons (x : Expr) (xs : Exprs)
end

deriving instance DecidableEq for Expr, Exprs

def Exprs.length : Exprs → Nat
  | .nil => 0
  | .cons _ xs => xs.length + 1

inductive Tok where
  | atom (a : Atom)
  | op (text : String)
  | not
  | is (k : IsKind)
  | inn (negated : Bool)
  | lp | rp | comma
  deriving DecidableEq, Repr

abbrev Sql := List Tok

/-! ### The visitor -/

/-- Is the operand put in parentheses (168-179): only binary expressions are. -/
def parens (o : Op) (operand : Expr) : Bool :=
  match operand with
  | .bin oc _ _ => oc.prec == 0 || decide (oc.prec < o.prec)
  | _ => false

def wrap (b : Bool) (s : Sql) : Sql := if b then .lp :: s ++ [.rp] else s

/-- `join(", ")`. -/
def joinSql : List Sql → Sql
  | [] => []
  | [s] => s
  | s :: t :: rest => s ++ .comma :: joinSql (t :: rest)

/-- `f_down` (114-144). -/
def fDown (d : Dialect) : Expr → Bool
  | .bin o _ _ => (opToSql d o).isSome
  | .unsupported _ => false
  | _ => true

/-- `f_up` (146-239), on the stack with the top first; `none` is an error, and popping an empty
stack (a panic) is `none` as well. -/
def fUp (d : Dialect) (e : Expr) (stack : List Sql) : Option (List Sql) :=
  match e with
  | .atom (.tzTimestamp _) => none
  | .atom a => some ([.atom a] :: stack)
  | .bin o a b =>
    match stack with
    | r :: l :: stack' =>
      match opToSql d o with
      | none => none
      | some t => some ((wrap (parens o a) l ++ .op t :: wrap (parens o b) r) :: stack')
    | _ => none
  | .not _ =>
    match stack with
    | s :: stack' => some ((.not :: s) :: stack')
    | _ => none
  | .neg _ =>
    match stack with
    | s :: stack' => some ((.lp :: .op "-" :: s ++ [.rp]) :: stack')
    | _ => none
  | .is k _ =>
    match stack with
    | s :: stack' => some ((s ++ [.is k]) :: stack')
    | _ => none
  | .inList _ xs n =>
    if stack.length < xs.length then none
    else
      match stack.drop xs.length with
      | s :: stack' =>
        some ((s ++ .inn n :: .lp :: joinSql (stack.take xs.length).reverse ++ [.rp]) :: stack')
      | _ => none
  | .unsupported _ => some stack

mutual
/-- `filter.visit(&mut visitor)`: `f_down`, the children from left to right, `f_up`; an error stops
the walk. -/
def visit (d : Dialect) (e : Expr) (stack : List Sql) : Option (List Sql) :=
  if !fDown d e then none
  else
    let below : Option (List Sql) :=
      match e with
      | .bin _ a b => (visit d a stack).bind (visit d b)
      | .not a => visit d a stack
      | .neg a => visit d a stack
      | .is _ a => visit d a stack
      | .inList a xs _ => (visit d a stack).bind (visitAll d xs)
      | _ => some stack
    below.bind (fUp d e)

def visitAll (d : Dialect) (xs : Exprs) (stack : List Sql) : Option (List Sql) :=
  match xs with
  | .nil => some stack
  | .cons x xs => (visit d x stack).bind (visitAll d xs)
end

/-- `filter_expr_to_sql` (253-278). -/
def filterToSql (d : Dialect) (e : Expr) : Option Sql :=
  match visit d e [] with
  | some [s] => some s
  | _ => none

/-- `conjunction` (DataFusion). -/
def conjunction : List Expr → Option Expr
  | [] => none
  | e :: es => some (es.foldl (fun acc x => .bin .and acc x) e)

/-- The WHERE clause of a scan (provider.rs 150-169); the outer `none` is an error, the inner one
means no clause. -/
def whereClause (d : Dialect) (filters : List Expr) : Option (Option Sql) :=
  if filters.isEmpty then some none
  else
    match conjunction filters with
    | none => none
    | some e => (filterToSql d e).map some

/-- `supports_filters_pushdown` (224-242): the filters taken off DataFusion's hands. -/
def exact (d : Dialect) (e : Expr) : Bool := (filterToSql d e).isSome

/-! ### The remote database -/

/-- How strongly the constructs bind in the dialect; larger is tighter. -/
structure Prec where
  bp : Op → Nat
  notBp : Nat
  isBp : Nat
  inBp : Nat

/-- PostgreSQL manual, 4.1.6; SQLite manual, "Operators"; MySQL manual, 14.4.1. -/
def prec : Dialect → Prec
  | .postgres =>
    { bp := fun o => match o with
        | .or => 1
        | .and => 2
        | .distinct | .notDistinct => 4
        | .eq | .neq | .lt | .le | .gt | .ge => 5
        | .plus | .minus => 8
        | .mul | .div | .mod => 9
        | _ => 7
      notBp := 3
      isBp := 4
      inBp := 6 }
  | .sqlite =>
    { bp := fun o => match o with
        | .or => 1
        | .and => 2
        | .eq | .neq | .distinct | .notDistinct => 4
        | .lt | .le | .gt | .ge => 5
        | .bitAnd | .bitOr => 6
        | .plus | .minus => 7
        | .mul | .div | .mod => 8
        | _ => 9
      notBp := 3
      isBp := 4
      inBp := 4 }
  | .mysql =>
    { bp := fun o => match o with
        | .or => 1
        | .and => 2
        | .bitOr => 6
        | .bitAnd => 7
        | .plus | .minus => 8
        | .mul | .div | .mod => 9
        | .bitXor => 10
        | _ => 5
      notBp := 3
      isBp := 5
      inBp := 5 }

/-- Unary minus binds tighter than every binary operator. -/
def negBp : Nat := 50

/-- What an operator means to the remote database; `none` is a syntax error.  In MySQL `||` is OR. -/
def readOp : Dialect → String → Option Op
  | d, t =>
    if t = "OR" then some .or
    else if t = "AND" then some .and
    else if t = "=" then some .eq
    else if t = "!=" then some .neq
    else if t = "<" then some .lt
    else if t = "<=" then some .le
    else if t = ">" then some .gt
    else if t = ">=" then some .ge
    else if t = "+" then some .plus
    else if t = "-" then some .minus
    else if t = "*" then some .mul
    else if t = "/" then some .div
    else if t = "%" then some .mod
    else if t = "&" then some .bitAnd
    else if t = "|" then some .bitOr
    else if t = "||" then some (if d = .mysql then .or else .concat)
    else if t = "IS DISTINCT FROM" then (if d = .mysql then none else some .distinct)
    else if t = "IS NOT DISTINCT FROM" then (if d = .mysql then none else some .notDistinct)
    else if t = "~" then (if d = .postgres then some .regexMatch else none)
    else if t = "~*" then (if d = .postgres then some .regexIMatch else none)
    else if t = "!~" then (if d = .postgres then some .regexNotMatch else none)
    else if t = "!~*" then (if d = .postgres then some .regexNotIMatch else none)
    else if t = "RLIKE" then (if d = .mysql then some .regexMatch else none)
    else if t = "NOT RLIKE" then (if d = .mysql then some .regexNotMatch else none)
    else if t = "^" then (if d = .mysql then some .bitXor else none)
    else none

mutual
/-- Operator precedence parsing: an expression all of whose open operators bind at least as
tightly as `min`, and the rest of the text. -/
def parseE (d : Dialect) : Nat → Nat → Sql → Option (Expr × Sql)
  | 0, _, _ => none
  | f + 1, min, toks =>
    match toks with
    | .atom a :: r => parseRest d f min (.atom a) r
    | .lp :: r =>
      match parseE d f 0 r with
      | some (e, .rp :: r') => parseRest d f min e r'
      | _ => none
    | .not :: r =>
      if (prec d).notBp < min then none
      else
        match parseE d f (prec d).notBp r with
        | some (e, r') => parseRest d f min (.not e) r'
        | none => none
    | .op t :: r =>
      if t = "-" then
        match parseE d f negBp r with
        | some (e, r') => parseRest d f min (.neg e) r'
        | none => none
      else none
    | _ => none

/-- The operators after an operand. -/
def parseRest (d : Dialect) : Nat → Nat → Expr → Sql → Option (Expr × Sql)
  | 0, _, _, _ => none
  | f + 1, min, lhs, toks =>
    match toks with
    | .op t :: r =>
      match readOp d t with
      | none => none
      | some o =>
        if (prec d).bp o < min then some (lhs, toks)
        else
          match parseE d f ((prec d).bp o + 1) r with
          | some (rhs, r') => parseRest d f min (.bin o lhs rhs) r'
          | none => none
    | .is k :: r =>
      if (prec d).isBp < min then some (lhs, toks) else parseRest d f min (.is k lhs) r
    | .inn n :: .lp :: r =>
      if (prec d).inBp < min then some (lhs, toks)
      else
        match parseItems d f r with
        | some (xs, r') => parseRest d f min (.inList lhs xs n) r'
        | none => none
    | _ => some (lhs, toks)

/-- The list of an IN. -/
def parseItems (d : Dialect) : Nat → Sql → Option (Exprs × Sql)
  | 0, _ => none
  | f + 1, toks =>
    match parseE d f 0 toks with
    | some (x, .rp :: r) => some (.cons x .nil, r)
    | some (x, .comma :: r) =>
      match parseItems d f r with
      | some (xs, r') => some (.cons x xs, r')
      | none => none
    | _ => none
end

/-- The remote database reads the text as the expression. -/
def Reads (d : Dialect) (s : Sql) (e : Expr) : Prop := ∃ f, parseE d f 0 s = some (e, [])

end Seafowl.Remote
