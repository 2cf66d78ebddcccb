import Verif.Dml.Dml

/-!
# From DML statements to the file operations

`create_logical_plan` and `create_physical_plan` look at the *shape* of the plan of a DML statement: DELETE uses a
predicate only if the optimized input of the statement is a `Filter` node, UPDATE only if the input of the projection
is one, INSERT ignores which kind of INSERT was asked for.  This file models the plans, the rules of the DataFusion
optimizer that matter for their shape, and the dispatch on it.
-/

namespace Seafowl.Dml

variable {κ : Type} [DecidableEq κ]

/-- The tables of a database, as their rows. -/
abbrev Db (κ : Type) := String → List (Row κ)

/-- A condition of a WHERE clause as DataFusion plans it (`Expr`): a literal truth value, an expression on the columns of
the row, `col IN (SELECT …)` and AND.  The subquery is given by its meaning: the values it returns on a database.
Simplified: the values of subqueries are not NULL; EXISTS and scalar subqueries are left out. -/
inductive Cond (κ : Type) where
  | lit (b : Option Bool)
  | test (p : Pred κ)
  | inQuery (col : Nat) (q : Db κ → List κ)
  | and (a b : Cond κ)

/-- Three-valued AND. -/
def and3 : Option Bool → Option Bool → Option Bool
  | some false, _ => some false
  | _, some false => some false
  | some true, some true => some true
  | _, _ => none

/-- The value of a condition on a row of a database. -/
def Cond.sem (db : Db κ) : Cond κ → Row κ → Option Bool
  | .lit b, _ => b
  | .test p, r => p r
  | .inQuery col q, r => (r[col]?).map (fun v => (q db).contains v)
  | .and a b, r => and3 (a.sem db r) (b.sem db r)

/-- Logical plans that occur as the input of DELETE (`LogicalPlan`): TableScan, EmptyRelation, Filter and the left semi
join with a subquery. -/
inductive Plan (κ : Type) where
  | scan (t : String)
  | empty
  | filter (c : Cond κ) (input : Plan κ)
  | semi (input : Plan κ) (col : Nat) (q : Db κ → List κ)

/-- The rows a plan returns. -/
def Plan.eval (db : Db κ) : Plan κ → List (Row κ)
  | .scan t => db t
  | .empty => []
  | .filter c input => (input.eval db).filter (fun r => c.sem db r == some true)
  | .semi input col q => (input.eval db).filter (fun r => (r[col]?).any (fun v => (q db).contains v))

/-! ### optimizer rules of DataFusion -/

/-- `EliminateFilter` (DataFusion): a filter that is always true goes, one that is always false or NULL becomes an empty
relation. -/
def eliminateFilter : Plan κ → Plan κ
  | .filter (.lit (some true)) input => eliminateFilter input
  | .filter (.lit _) _ => .empty
  | .filter c input => .filter c (eliminateFilter input)
  | .semi input col q => .semi (eliminateFilter input) col q
  | p => p

/-- The conjuncts of a condition (`split_conjunction`). -/
def Cond.conjuncts : Cond κ → List (Cond κ)
  | .and a b => a.conjuncts ++ b.conjuncts
  | c => [c]

/-- The subquery of a conjunct. -/
def Cond.subquery? : Cond κ → Option (Nat × (Db κ → List κ))
  | .inQuery col q => some (col, q)
  | _ => none

/-- `DecorrelatePredicateSubquery` (DataFusion) on a filter: each conjunct that is a subquery becomes a semi join, the
others stay in a filter on top. -/
def decorrelateFilter (c : Cond κ) (input : Plan κ) : Plan κ :=
  let joined := (c.conjuncts.filterMap Cond.subquery?).foldl (fun p cq => .semi p cq.1 cq.2) input
  match c.conjuncts.filter (fun d => d.subquery?.isNone) with
  | [] => joined
  | d :: ds => .filter (ds.foldl .and d) joined

/-- `DecorrelatePredicateSubquery` (DataFusion). -/
def decorrelate : Plan κ → Plan κ
  | .filter c input => decorrelateFilter c (decorrelate input)
  | .semi input col q => .semi (decorrelate input) col q
  | p => p

/-- Move a filter below the semi joins under it. -/
def pushInto (c : Cond κ) : Plan κ → Plan κ
  | .semi input col q => .semi (pushInto c input) col q
  | p => .filter c p

/-- `PushDownFilter` (DataFusion) through the left side of semi joins.  Filters on a table scan stay, as Delta tables
only support inexact filters. -/
def pushDown : Plan κ → Plan κ
  | .filter c input => pushInto c (pushDown input)
  | .semi input col q => .semi (pushDown input) col q
  | p => p

/-- The optimizer, as far as these rules go: `state.optimize(&plan)`. -/
def optimize (p : Plan κ) : Plan κ := pushDown (eliminateFilter (decorrelate p))

/-! ### DELETE -/

/-- The input of the `Dml` node of `DELETE FROM t [WHERE c]` (DataFusion `delete_to_plan`). -/
def deletePlan (t : String) : Option (Cond κ) → Plan κ
  | none => .scan t
  | some c => .filter c (.scan t)

/-- `create_physical_expr`: subqueries have no physical expression and give an error. -/
def Cond.physical : Cond κ → Option (Pred κ)
  | .lit b => some (fun _ => b)
  | .test p => some p
  | .inQuery _ _ => none
  | .and a b =>
    match a.physical, b.physical with
    | some p, some q => some (fun r => and3 (p r) (q r))
    | _, _ => none

/-- `if let LogicalPlan::Filter(Filter { predicate, .. }) = &**input` (physical.rs 386-395, 447-451): the predicate of
the statement if its input is a filter, no predicate otherwise.  `none`: error. -/
def planSelection : Plan κ → Option (Option (Pred κ))
  | .filter c _ => c.physical.map some
  | _ => some none

/-- `DELETE FROM t [WHERE c]`: planned, optimized by `opt` (logical.rs 152-156) and executed (physical.rs 370-485). -/
def deleteStmt (opt : Plan κ → Plan κ) (max : Nat) (t : String) (w : Option (Cond κ)) (files : Snapshot κ)
    (keep : List Bool) (scan : List (List (Row κ))) : Option (Commit κ) :=
  match planSelection (opt (deletePlan t w)) with
  | none => none
  | some sel => delete max sel files keep scan

/-! ### INSERT -/

/-- `InsertOp` (DataFusion): `INSERT INTO`, `INSERT OVERWRITE` and `REPLACE INTO`. -/
inductive InsertOp where
  | append
  | overwrite
  | replace
deriving DecidableEq

/-- INSERT: `op: WriteOp::Insert(_)` (physical.rs 193-215) does not look at the kind of the statement. -/
def insertStmt (_op : InsertOp) (max : Nat) (batches : List (List (Row κ))) : Option (Commit κ) := insert max batches

/-! ### UPDATE … FROM -/

/-- A column of the table that is updated or of the table after FROM. -/
inductive Ref where
  | own (col : String)
  | other (col : String)
deriving DecidableEq

/-- A scalar expression: the columns it refers to and its value given theirs (`none`: the evaluation fails). -/
structure RExpr (κ τ : Type) where
  refs : List Ref
  f : List κ → Option τ

/-- The value of a column. -/
def Ref.value (fields ofields : List String) (r s : Row κ) : Ref → Option κ
  | .own c => colAt fields r c
  | .other c => colAt ofields s c

/-- The values of columns; `none` if one of them is missing. -/
def refValues (fields ofields : List String) (r s : Row κ) : List Ref → Option (List κ)
  | [] => some []
  | x :: xs =>
    match x.value fields ofields r s, refValues fields ofields r s xs with
    | some v, some vs => some (v :: vs)
    | _, _ => none

/-- The value of an expression on a pair of rows. -/
def RExpr.eval {τ : Type} (fields ofields : List String) (e : RExpr κ τ) (r s : Row κ) : Option τ :=
  (refValues fields ofields r s e.refs).bind e.f

/-- Does the expression only refer to the updated table? -/
def RExpr.ownOnly {τ : Type} (e : RExpr κ τ) : Bool :=
  e.refs.all (fun x => match x with
    | .own _ => true
    | .other _ => false)

/-- `create_physical_expr(expr, &df_schema, …)` with the schema of the updated table (physical.rs 236-239, 277-281):
columns of another table are not found. -/
def RExpr.physical {τ : Type} (fields : List String) (e : RExpr κ τ) : Option (Row κ → Option τ) :=
  if e.ownOnly then some (fun r => e.eval fields [] r []) else none

/-- `project_expressions` fails if one of the expressions has no physical expression (physical.rs 318-323). -/
def physicalAssigns (fields : List String) : List (String × RExpr κ κ) → Option (List (String × SExpr κ))
  | [] => some []
  | (f, e) :: as =>
    match e.physical fields, physicalAssigns fields as with
    | some p, some ps => some ((f, p) :: ps)
    | _, _ => none

/-- The files an UPDATE rewrites (physical.rs 286-307). -/
def updateFiles (sel : Option (Pred κ)) (files : Snapshot κ) (keep : List Bool) : Snapshot κ :=
  match sel with
  | some _ => keptFiles files keep
  | none => files

/-- The predicate of an UPDATE (physical.rs 245-307); `none`: error. -/
def updateSelection (fields : List String) : Option (RExpr κ Bool) → Option (Option (Pred κ))
  | none => some none
  | some c => (c.physical fields).map some

/-- `UPDATE t SET … FROM s WHERE c` (logical.rs 124-151, physical.rs 216-369): the guard does not look at `from`, the
input of the projection is destructured and only the updated table is scanned; the rows of `s` play no part.  Only
`SimplifyExpressions` runs before, which keeps the shape of the plan. -/
def updateFromStmt (max : Nat) (fields : List String) (assigns : List (String × RExpr κ κ)) (c : Option (RExpr κ Bool))
    (files : Snapshot κ) (keep : List Bool) (scan : List (List (Row κ))) : Option (Commit κ) :=
  match updateSelection fields c with
  | none => none
  | some sel =>
    if (updateFiles sel files keep).isEmpty then some { adds := [], removes := [] }
    else
      match physicalAssigns fields assigns with
      | none => none
      | some as => update max fields as sel files keep scan

end Seafowl.Dml
