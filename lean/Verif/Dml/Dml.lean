import Verif.Dml.Rechunk

/-!
# Model of INSERT, UPDATE and DELETE

/repo/src/context/physical.rs 193-485 (the `Dml` arms of `create_physical_plan`),
/repo/src/provider.rs 140-182 (`project_expressions`), /repo/src/context/delta.rs 383-440
(`plan_to_delta_table`, `commit_delta_table`).

Expressions are functions on rows; an expression may fail (`none`).  Predicates are three-valued.
Which files `PruningPredicate::prune` keeps and which rows the Delta scan returns are parameters.
-/

namespace Seafowl.Dml

variable {κ : Type}

/-- A row: the values of the columns in schema order. -/
abbrev Row (κ : Type) := List κ

/-- Three-valued predicate (`none`: NULL). -/
abbrev Pred (κ : Type) := Row κ → Option Bool

/-- A scalar expression; `none`: evaluation error. -/
abbrev SExpr (κ : Type) := Row κ → Option κ

/-- Value of a column by name (`col(f.name(), schema)`). -/
def colAt : List String → Row κ → String → Option κ
  | f :: fs, v :: vs, name => if f = name then some v else colAt fs vs name
  | _, _, _ => none

/-- Assigned expression of a column. -/
def assigned : List (String × SExpr κ) → String → Option (SExpr κ)
  | [], _ => none
  | (n, e) :: rest, name => if n = name then some e else assigned rest name

/-- The projection of the logical UPDATE plan (library behaviour): one expression per column of the table
in schema order, the assigned expression or the column itself. -/
def planExprs (fields : List String) (assigns : List (String × SExpr κ)) : List (SExpr κ) :=
  fields.map (fun f => (assigned assigns f).getD (fun r => colAt fields r f))

/-- The expression for one column (provider.rs 160-178): with a WHERE clause `CASE WHEN sel THEN expr
ELSE column`. -/
def caseExpr (fields : List String) (sel : Option (Pred κ)) (e : SExpr κ) (f : String) : SExpr κ := fun r =>
  match sel with
  | none => e r
  | some p => if p r = some true then e r else colAt fields r f

/-- `project_expressions` (provider.rs 140-182).  Casts are part of the expressions. -/
def projectExpressions (exprs : List (SExpr κ)) (fields : List String) (sel : Option (Pred κ)) : List (SExpr κ) :=
  (exprs.zip fields).map (fun ef => caseExpr fields sel ef.1 ef.2)

/-- Evaluating all expressions on a row. -/
def evalRow : List (SExpr κ) → Row κ → Option (Row κ)
  | [], _ => some []
  | e :: es, r =>
    match e r, evalRow es r with
    | some v, some vs => some (v :: vs)
    | _, _ => none

/-- `ProjectionExec` over all rows; `none` if an evaluation fails. -/
def evalRows (es : List (SExpr κ)) : List (Row κ) → Option (List (Row κ))
  | [] => some []
  | r :: rs =>
    match evalRow es r, evalRows es rs with
    | some v, some vs => some (v :: vs)
    | _, _ => none

/-- The record batches of the projection. -/
def evalBatches (es : List (SExpr κ)) : List (List (Row κ)) → Option (List (List (Row κ)))
  | [] => some []
  | b :: bs =>
    match evalRows es b, evalBatches es bs with
    | some v, some vs => some (v :: vs)
    | _, _ => none

/-- Data file names: the UUID of the statement and the number of the part (delta.rs 171-173). -/
abbrev FileName := Nat × Nat

/-- A table snapshot: the live files with their rows (`snapshot.file_actions()`). -/
abbrev Snapshot (κ : Type) := List (FileName × List (Row κ))

/-- What a statement commits: the rows of the new files and the names of the removed files. -/
structure Commit (κ : Type) where
  adds : List (List (Row κ))
  removes : List FileName

/-- `zip(prune_map).filter_map(keep)` (physical.rs 286-293, 401-408). -/
def keptFiles (files : Snapshot κ) (keep : List Bool) : Snapshot κ :=
  (files.zip keep).filterMap (fun fk => if fk.2 then some fk.1 else none)

/-- The rows `plan_to_delta_adds` writes, as files. -/
def addFiles (max : Nat) (batches : List (List (Row κ))) : Option (List (List (Row κ))) :=
  (rechunk max batches).map (fun fs => fs.map (·.1))

/-- INSERT (physical.rs 193-215, delta.rs 383-427): the batches of the source plan. -/
def insert (max : Nat) (batches : List (List (Row κ))) : Option (Commit κ) :=
  (addFiles max batches).map (fun a => { adds := a, removes := [] })

/-- UPDATE (physical.rs 216-369).  `keep`: the prune map; `scan`: the record batches
returned by `table.scan(filter)`.  `none`: the statement fails before anything is committed. -/
def update (max : Nat) (fields : List String) (assigns : List (String × SExpr κ)) (sel : Option (Pred κ))
    (files : Snapshot κ) (keep : List Bool) (scan : List (List (Row κ))) : Option (Commit κ) :=
  let removes := match sel with
    | some _ => keptFiles files keep
    | none => files
  if removes.isEmpty then some { adds := [], removes := [] }
  else
    match evalBatches (projectExpressions (planExprs fields assigns) fields sel) scan with
    | none => none
    | some batches => (addFiles max batches).map (fun a => { adds := a, removes := removes.map (·.1) })

/-- Three-valued NOT. -/
def notP (p : Pred κ) : Pred κ := fun r => (p r).map (!·)

/-- `FilterExec`: rows for which the predicate is true. -/
def filterRows (p : Pred κ) (rows : List (Row κ)) : List (Row κ) := rows.filter (fun r => p r == some true)

/-- DELETE (physical.rs 370-485). -/
def delete (max : Nat) (sel : Option (Pred κ)) (files : Snapshot κ) (keep : List Bool)
    (scan : List (List (Row κ))) : Option (Commit κ) :=
  match sel with
  | some p =>
    let kept := keptFiles files keep
    if kept.isEmpty then some { adds := [], removes := [] }
    else (addFiles max (scan.map (filterRows (notP p)))).map (fun a => { adds := a, removes := kept.map (·.1) })
  | none => some { adds := [], removes := files.map (·.1) }

/-! ### uploads, commit and catalog -/

/-- Log actions. -/
inductive Action where
  | add (f : FileName)
  | remove (f : FileName)
deriving DecidableEq, Repr

/-- Object store, Delta log (committed action lists) and the versions recorded in the catalog. -/
structure World (κ : Type) where
  objects : FileName → Option (List (Row κ))
  log : List (List Action)
  recorded : List Nat

/-- Replay of one action (Delta protocol). -/
def applyAction (live : List FileName) : Action → List FileName
  | .add f => live ++ [f]
  | .remove f => live.filter (· != f)

/-- The live files. -/
def live (log : List (List Action)) : List FileName := log.flatten.foldl applyAction []

/-- The visible table. -/
def snapshot (w : World κ) : Snapshot κ := (live w.log).map (fun f => (f, (w.objects f).getD []))

/-- Uploading the new files of a statement with the given UUID; each upload may fail, the others happen
nevertheless (`join_all`, delta.rs 260-266).  The second component: did all succeed. -/
def uploadFiles (uuid : Nat) : Nat → List (List (Row κ)) → List Bool → (FileName → Option (List (Row κ))) →
    (FileName → Option (List (Row κ))) × Bool
  | _, [], _, o => (o, true)
  | i, rows :: rest, oks, o =>
    let ok := oks.headD true
    let o' := if ok then (fun f => if f = (uuid, i) then some rows else o f) else o
    let r := uploadFiles uuid (i + 1) rest oks.tail o'
    (r.1, ok && r.2)

/-- Running the writing part of a statement: uploads, then one commit with the adds followed by the
removes, then the catalog record (physical.rs 331-366, 451-483; delta.rs 396-424).  The flag: did the
statement succeed. -/
def execute (w : World κ) (uuid : Nat) (c : Commit κ) (uploadsOk : List Bool) (commitOk recordOk : Bool) :
    World κ × Bool :=
  let u := uploadFiles uuid 0 c.adds uploadsOk w.objects
  let w1 := { w with objects := u.1 }
  if !u.2 then (w1, false)
  else if !commitOk then (w1, false)
  else
    let actions := (List.range c.adds.length).map (fun i => Action.add (uuid, i)) ++ c.removes.map Action.remove
    let w2 := { w1 with log := w1.log ++ [actions] }
    if !recordOk then (w2, false)
    else ({ w2 with recorded := w2.recorded ++ [w2.log.length - 1] }, true)

end Seafowl.Dml
