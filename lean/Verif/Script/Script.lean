/-!
# Several statements in one go: one-off commands, the command line, HTTP, the PostgreSQL protocol

Modelled: /repo/src/utils.rs 22-48 (`run_one_off_command`), /repo/src/cli/mod.rs 96-129 (`exec_and_print`),
/repo/src/frontend/http.rs 157-232 (`uncached_read_write_query`, the execution of the statements),
/repo/src/frontend/postgres.rs 17-74 (`prepare`, `create_portal`, `fetch`), and what they need of
/repo/src/context/physical.rs 85-772 (`plan_query`, `create_physical_plan`): a statement that changes something is executed
while it is *planned*; a query captures at planning the files of its tables and reads them when it is *collected*.

Simplified: a table is a list of files with rows (layout of files, order of rows and pruning are in Dml); a query is any
function of the rows of its tables that may fail at run time; authorization is in Front.
-/

namespace Seafowl.Script

variable {α : Type}

/-- A query: its tables and what it computes from their rows (`none`: an error at run time). -/
structure Query (α : Type) where
  tables : List String
  eval : List (List α) → Option (List α)

inductive Stmt (α : Type) where
  /-- `SELECT` -/
  | read (q : Query α)
  /-- `INSERT INTO t SELECT ...` -/
  | insert (t : String) (q : Query α)
  /-- `UPDATE`, `DELETE`: the rows of the table are replaced -/
  | rewrite (t : String) (f : List α → Option (List α))
  | create (t : String)
  | drop (t : String)
  | vacuum (t : String)
  | rename (a b : String)

/-- A table of the catalog: its directory and the files of the newest version. -/
structure Tbl where
  uuid : Nat
  files : List Nat
  deriving DecidableEq, Repr

/-- Catalog and object store; a file has the directory of its table and rows. -/
structure World (α : Type) where
  names : String → Option Tbl
  store : Nat → Option (Nat × List α)
  nextUuid : Nat
  nextFile : Nat

/-- What is kept of a planned query: the files of its tables at planning time. -/
structure Plan (α : Type) where
  files : List (List Nat)
  eval : List (List α) → Option (List α)

/-- `make_dummy_exec` (physical.rs 70-75): no rows. -/
def dummy : Plan α := { files := [], eval := fun _ => some [] }

/-- The rows of the given files; a missing file is an error of the object store. -/
def World.scan (w : World α) (files : List Nat) : Option (List α) :=
  (files.mapM fun i => (w.store i).map Prod.snd).map List.flatten

/-- `collect` (physical.rs): reads the captured files. -/
def World.collect (w : World α) (p : Plan α) : Option (List α) :=
  (p.files.mapM w.scan).bind p.eval

/-- Planning of a query: unknown tables are an error. -/
def World.capture (w : World α) (q : Query α) : Option (Plan α) :=
  (q.tables.mapM fun n => (w.names n).map Tbl.files).map fun fs => { files := fs, eval := q.eval }

/-- A new file in the directory of a table. -/
def World.addFile (w : World α) (uuid : Nat) (rows : List α) : World α :=
  { w with
    store := fun i => if i = w.nextFile then some (uuid, rows) else w.store i
    nextFile := w.nextFile + 1 }

/-- A new entry or version in the catalog. -/
def World.setName (w : World α) (n : String) (t : Option Tbl) : World α :=
  { w with names := fun m => if m = n then t else w.names m }

/-- Files are removed from the object store. -/
def World.remove (w : World α) (p : Nat → Nat → Bool) : World α :=
  { w with
    store := fun i =>
      match w.store i with
      | some (uuid, rows) => if p uuid i then none else some (uuid, rows)
      | none => none }

/-- INSERT: the source is read, a file is written, a version is committed. -/
def World.doInsert (w : World α) (n : String) (q : Query α) : Option (World α) :=
  match w.capture q, w.names n with
  | some p, some t => (w.collect p).map fun rows =>
      (w.addFile t.uuid rows).setName n (some { t with files := t.files ++ [w.nextFile] })
  | _, _ => none

def World.doRewrite (w : World α) (n : String) (f : List α → Option (List α)) : Option (World α) :=
  match w.names n with
  | some t => ((w.scan t.files).bind f).map fun rows =>
      (w.addFile t.uuid rows).setName n (some { t with files := [w.nextFile] })
  | none => none

def World.doCreate (w : World α) (n : String) : Option (World α) :=
  match w.names n with
  | some _ => none
  | none => some ({ w with nextUuid := w.nextUuid + 1 }.setName n (some { uuid := w.nextUuid, files := [] }))

/-- DROP TABLE (physical.rs, `delete_delta_table`): the directory of the table is removed at once. -/
def World.doDrop (w : World α) (n : String) : Option (World α) :=
  match w.names n with
  | some t => some ((w.remove fun uuid _ => uuid == t.uuid).setName n none)
  | none => none

/-- VACUUM TABLE (physical.rs 703-766): everything in the directory that the newest version does not use is removed, with
retention period zero. -/
def World.doVacuum (w : World α) (n : String) : Option (World α) :=
  match w.names n with
  | some t => some (w.remove fun uuid i => uuid == t.uuid && !t.files.contains i)
  | none => none

def World.doRename (w : World α) (a b : String) : Option (World α) :=
  match w.names a, w.names b with
  | some t, none => some ((w.setName a none).setName b (some t))
  | _, _ => none

/-- `create_logical_plan_from_statement` and `create_physical_plan`: changes are made here. -/
def World.plan (w : World α) : Stmt α → Option (World α × Plan α)
  | .read q => (w.capture q).map fun p => (w, p)
  | .insert n q => (w.doInsert n q).map fun w' => (w', dummy)
  | .rewrite n f => (w.doRewrite n f).map fun w' => (w', dummy)
  | .create n => (w.doCreate n).map fun w' => (w', dummy)
  | .drop n => (w.doDrop n).map fun w' => (w', dummy)
  | .vacuum n => (w.doVacuum n).map fun w' => (w', dummy)
  | .rename a b => (w.doRename a b).map fun w' => (w', dummy)

/-- What a run leaves behind: the world, the outputs printed so far, and whether it went through. -/
structure Outcome (W α : Type) where
  world : W
  out : List (List α)
  ok : Bool

/-- `run_one_off_command`: each statement is planned, collected and printed before the next one; the first error ends the
process (`unwrap`). -/
def oneOff (w : World α) : List (Stmt α) → Outcome (World α) α
  | [] => ⟨w, [], true⟩
  | s :: ss =>
    match w.plan s with
    | none => ⟨w, [], false⟩
    | some (w', p) =>
      match w'.collect p with
      | none => ⟨w', [], false⟩
      | some rows => let r := oneOff w' ss; ⟨r.world, rows :: r.out, r.ok⟩

/-- The first loop of `exec_and_print`: all statements are planned. -/
def planAll (w : World α) : List (Stmt α) → World α × Option (List (Plan α))
  | [] => (w, some [])
  | s :: ss =>
    match w.plan s with
    | none => (w, none)
    | some (w', p) => let r := planAll w' ss; (r.1, r.2.map (p :: ·))

/-- The second loop: all plans are collected and printed. -/
def collectAll (w : World α) : List (Plan α) → List (List α) × Bool
  | [] => ([], true)
  | p :: ps =>
    match w.collect p with
    | none => ([], false)
    | some rows => let r := collectAll w ps; (rows :: r.1, r.2)

/-- `exec_and_print` (cli/mod.rs 96-129). -/
def cli (w : World α) (ss : List (Stmt α)) : Outcome (World α) α :=
  match planAll w ss with
  | (w', none) => ⟨w', [], false⟩
  | (w', some ps) => let r := collectAll w' ps; ⟨w', r.1, r.2⟩

def Stmt.isRead : Stmt α → Bool
  | .read _ => true
  | _ => false

/-- The gate of `uncached_read_write_query` (http.rs 175-203): at least one statement, at most one read, and only as the last
statement. -/
def httpGate (ss : List (Stmt α)) : Bool :=
  let reads := (ss.filter Stmt.isRead).length
  !(ss.isEmpty || reads > 1 || (reads == 1 && !(ss.getLast?.map Stmt.isRead).getD false))

/-- Lines 205-219: all statements are planned, the plan of the last one is collected. -/
def http (w : World α) (ss : List (Stmt α)) : World α × Option (List α) :=
  if httpGate ss then
    match planAll w ss with
    | (w', none) => (w', none)
    | (w', some ps) => (w', ps.getLast?.bind w'.collect)
  else (w, none)

/-! ### the PostgreSQL protocol -/

/-- Messages of a client (the library `convergence` calls `prepare`, `create_portal` and `fetch` for them). -/
inductive Msg (α : Type) where
  /-- simple query: one statement -/
  | query (s : Stmt α)
  /-- a named prepared statement -/
  | parse (name : String) (s : Stmt α)
  | bind (portal name : String)
  | execute (portal : String)

inductive Reply (α : Type) where
  | done
  | rows (r : List α)
  | error
  deriving DecidableEq, Repr

structure Session (α : Type) where
  world : World α
  prepared : String → Option (Stmt α)
  portals : String → Option (Plan α)

/-- `create_logical_plan`: unknown tables are an error, nothing is executed. -/
def World.logicalOk (w : World α) : Stmt α → Bool
  | .read q => (w.capture q).isSome
  | .insert n q => (w.names n).isSome && (w.capture q).isSome
  | .rewrite n _ => (w.names n).isSome
  | _ => true

/-- `prepare`, `create_portal` and `fetch` in turn, as for a simple query. -/
def simpleQuery (w : World α) (s : Stmt α) : World α × Reply α :=
  if w.logicalOk s then
    match w.plan s with
    | none => (w, .error)
    | some (w', p) =>
      match w'.collect p with
      | none => (w', .error)
      | some rows => (w', .rows rows)
  else (w, .error)

def Session.step (S : Session α) : Msg α → Session α × Reply α
  | .query s => let r := simpleQuery S.world s; ({ S with world := r.1 }, r.2)
  | .parse name s =>
    if S.world.logicalOk s then
      ({ S with prepared := fun n => if n = name then some s else S.prepared n }, .done)
    else (S, .error)
  | .bind portal name =>
    match S.prepared name with
    | none => (S, .error)
    | some s =>
      match S.world.plan s with
      | none => (S, .error)
      | some (w', p) =>
        ({ S with world := w', portals := fun n => if n = portal then some p else S.portals n }, .done)
  | .execute portal =>
    match S.portals portal with
    | none => (S, .error)
    | some p =>
      match S.world.collect p with
      | none => (S, .error)
      | some rows => (S, .rows rows)

def Session.run (S : Session α) : List (Msg α) → Session α × List (Reply α)
  | [] => (S, [])
  | m :: ms =>
    let r := S.step m
    let r2 := r.1.run ms
    (r2.1, r.2 :: r2.2)

end Seafowl.Script
