/-!
# INSERT, UPDATE and DELETE statements that run at the same time (C128)

Each statement first works without a lock: INSERT writes its rows to new files (`plan_to_delta_table`,
/repo/src/context/delta.rs 382-426), UPDATE and DELETE load the newest version of the table, select the files
that may contain qualifying rows and write new files for them (/repo/src/context/physical.rs 213-368, 369-484).
Only then it commits (`commit_delta_table`, delta.rs 428-440).  The commits of other statements fall in between.

The commit is the `CommitBuilder` of the library delta-rs: a new entry of the log is created if the entry with
that number does not exist; otherwise the entries written since the version the statement has loaded are checked for
conflicts and the next number is tried.  A file that is removed by both is a conflict
(`ConcurrentDeleteDelete`).  The other conflicts of the library concern the rows that the operation declares to have
read, changes of the metadata and of the protocol.  Seafowl declares nothing: UPDATE commits as
`DeltaOperation::Write { mode: Append, predicate: None }` (physical.rs 354-358) and DELETE as
`DeltaOperation::Delete { predicate: None }` (physical.rs 473); no statement here changes the metadata.

Simplified: rows of one table; the predicate of a statement is true or false for a row (NULL: C26, C89), an
assignment is a function of the row, and a scan returns the rows of the selected files (row groups: C25).  A statement
that is interrupted by an error or by a crash is an event of its own.  The table is not dropped or renamed.
-/

namespace Seafowl.Races

variable {ρ : Type}

/-- The name of a data file: the statement that writes it (plus one; 0: before all statements) and a number.  The code
draws a UUID (`plan_to_delta_adds`, delta.rs 160-175). -/
abbrev Path := Nat × Nat

/-- A data file of the table. -/
structure File (ρ : Type) where
  path : Path
  rows : List ρ
deriving DecidableEq, Repr

/-- A statement. -/
inductive Stmt (ρ : Type) where
  /-- INSERT of rows that do not depend on the table. -/
  | insert (rows : List ρ)
  /-- INSERT of the result of a query that reads the table itself. -/
  | insertFrom (q : List ρ → List ρ)
  /-- UPDATE (`g x = some y`) and DELETE (`g x = none`) of the rows with `p x`. -/
  | modify (p : ρ → Bool) (g : ρ → Option ρ)

/-- The statements, and what is not fixed by them. -/
structure Sys (ρ : Type) where
  stmts : List (Stmt ρ)
  /-- `PruningPredicate::prune` (physical.rs 275-291, 400-411): may this file contain qualifying rows? -/
  keep : Nat → List ρ → Bool
  /-- `plan_to_delta_adds` (delta.rs 98-265): how rows are distributed over files (C27). -/
  cut : List ρ → List (List ρ)

/-- How far a statement is. -/
inductive Stage (ρ : Type) where
  | start
  /-- It has written its files, based on the version of the table with this number. -/
  | ready (version : Nat) (adds : List (File ρ)) (removes : List Path)
  /-- It has committed. -/
  | done
  | failed
deriving DecidableEq, Repr

/-- The newest version of the table, its log (the statement that wrote an entry and the files the entry removes,
oldest first) and the statements. -/
structure State (ρ : Type) where
  files : List (File ρ)
  log : List (Nat × List Path)
  stage : Nat → Stage ρ

/-- Something happens. -/
inductive Ev where
  /-- The statement does its next step. -/
  | run (i : Nat)
  /-- The statement is interrupted. -/
  | fail (i : Nat)
deriving DecidableEq, Repr

/-- The files in which a statement writes these rows. -/
def write (sys : Sys ρ) (i : Nat) (rows : List ρ) : List (File ρ) :=
  (sys.cut rows).zipIdx.map (fun c => { path := (i + 1, c.2), rows := c.1 })

/-- The rows of some files. -/
def rowsOf (fs : List (File ρ)) : List ρ := fs.flatMap (·.rows)

/-- What a row becomes: `CASE WHEN p THEN g ELSE x` (`project_expressions`, /repo/src/provider.rs 140-182), or the
filter `NOT p` (physical.rs 419-434). -/
def change (p : ρ → Bool) (g : ρ → Option ρ) (x : ρ) : Option ρ := if p x then g x else some x

/-- The first step of a statement. -/
def prepare (sys : Sys ρ) (s : State ρ) (i : Nat) : Stmt ρ → Stage ρ
  | .insert rows => .ready s.log.length (write sys i rows) []
  | .insertFrom q => .ready s.log.length (write sys i (q (rowsOf s.files))) []
  | .modify p g =>
    let touched := s.files.filter (fun f => sys.keep i f.rows)
    .ready s.log.length (write sys i ((rowsOf touched).filterMap (change p g))) (touched.map (·.path))

/-- The conflict check: a file this statement removes was removed by an entry written since. -/
def conflict (s : State ρ) (version : Nat) (removes : List Path) : Bool :=
  (s.log.drop version).any (fun e => e.2.any (fun p => removes.contains p))

/-- The stage of one statement changes. -/
def setStage (s : State ρ) (i : Nat) (st : Stage ρ) : State ρ :=
  { s with stage := fun j => if j = i then st else s.stage j }

/-- The second step of a statement: `commit_delta_table`. -/
def commit (s : State ρ) (i version : Nat) (adds : List (File ρ)) (removes : List Path) : State ρ :=
  if conflict s version removes then setStage s i .failed
  else
    setStage { s with files := s.files.filter (fun f => !removes.contains f.path) ++ adds
                      log := s.log ++ [(i, removes)] } i .done

/-- One event. -/
def step (sys : Sys ρ) (s : State ρ) : Ev → State ρ
  | .run i =>
    match sys.stmts[i]?, s.stage i with
    | some st, .start => setStage s i (prepare sys s i st)
    | some _, .ready v adds removes => commit s i v adds removes
    | _, _ => s
  | .fail i =>
    match s.stage i with
    | .start => setStage s i .failed
    | .ready _ _ _ => setStage s i .failed
    | _ => s

/-- The table at the beginning. -/
def initial (init : List (List ρ)) : State ρ where
  files := init.zipIdx.map (fun c => { path := (0, c.2), rows := c.1 })
  log := []
  stage := fun _ => .start

/-- Events in a row. -/
def run (sys : Sys ρ) (init : List (List ρ)) (evs : List Ev) : State ρ := evs.foldl (step sys) (initial init)

end Seafowl.Races
