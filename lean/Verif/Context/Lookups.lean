/-
Statements that look up their table by name, more than once, while other statements change what the name means.

Every statement first registers in its session the catalog it read from the metastore; a lookup afterwards uses the
catalog that is registered in the session *at that moment*.  UPDATE looks up the table whose log it commits to and then,
again, the directory it writes to; DELETE does it in the opposite order; DROP TABLE looks up the files it deletes in the
session and the entry it deletes in the metastore.
-/
namespace Seafowl.Lookups

/-- The UUID of a table: the name of its directory in the object store. -/
abbrev Table := Nat

/-- The name of a data file: `some i` are names made up by statement `i` (`Uuid::new_v4`, `src/context/delta.rs` 59-61, 153; two
statements never make up the same one), `none` names from before. -/
abbrev Path := Option Nat × Nat

/-- A list of tables by name: the rows of the metastore or what is registered in a session.  One schema of one database. -/
abbrev Names := List (String × Table)

/-- `TableProvider` lookup by name (`src/catalog/…`, `self.inner.table_provider`, `src/context/mod.rs` 149, 190). -/
def Names.find (c : Names) (n : String) : Option Table := (c.find? fun e => e.1 == n).map (·.2)

/-- What the Delta log of a table says: the files of the current version and the tombstones of earlier ones. -/
structure Log where
  live : List Path
  dead : List Path
deriving DecidableEq, Repr

/-- Statements.  `modify` is an UPDATE (`uuidFirst = false`) or DELETE (`uuidFirst = true`) that rewrites the files satisfying
`pick` to `k` new ones; `insert` writes `k` files.  Tables of other kinds (Iceberg, external) are not modelled, neither is
`CREATE TABLE … FROM` an existing directory. -/
inductive Stmt where
  | insert (n : String) (k : Nat)
  | modify (uuidFirst : Bool) (n : String) (pick : Path → Bool) (k : Nat)
  | truncate (n : String)
  | vacuum (n : String)
  | drop (n : String)
  | rename (n m : String)
  | create (n : String)

/-- How far a statement is.  Between two stages other statements may run. -/
inductive Stage where
  | start
  /-- the metastore has been read -/
  | listed (c : Names)
  /-- and registered in the session -/
  | ready
  /-- the table to commit to, and its log as loaded -/
  | found (t : Table) (l : Log)
  /-- the directory to write to -/
  | named (u : Table)
  | both (t : Table) (l : Log) (u : Table)
  /-- the new files `adds` are written; to be committed to the log of `t` -/
  | wrote (t : Table) (removes adds : List Path)
  /-- CREATE TABLE made the directory `u` with its log -/
  | made (u : Table)
  /-- DROP TABLE is past the deletion of the files -/
  | erased
  | finished (ok : Bool)

/-- A statement in a session.  Two statements share the session if they have the same `session` number. -/
structure Thread where
  stmt : Stmt
  session : Nat
  stage : Stage

structure World where
  /-- the rows of the metastore -/
  catalog : Names
  /-- the log of each directory, `none` if there is none -/
  log : Table → Option Log
  /-- the data files in each directory -/
  dir : Table → List Path
  /-- the catalog registered in each session -/
  session : Nat → Names
  threads : List Thread
  /-- the next UUID -/
  next : Table

/-- Pointwise update. -/
def set {α : Type} (f : Nat → α) (k : Nat) (v : α) : Nat → α := fun x => if x = k then v else f x

def World.goto (w : World) (i : Nat) (s : Stage) : World :=
  { w with threads := w.threads.modify i fun t => { t with stage := s } }

/-- The `k` file names statement `i` makes up. -/
def files (i k : Nat) : List Path := (List.range k).map fun x => (some i, x)

/-- `try_get_delta_table` (`src/context/mod.rs` 172-183) followed by `load` : fails if the session does not know the name or
the table has no log. -/
def World.look (w : World) (s : Nat) (n : String) : Option (Table × Log) :=
  match (w.session s).find n with
  | none => none
  | some t => (w.log t).map fun l => (t, l)

/-- `get_table_uuid` (`src/context/mod.rs` 186-216).  The provider may have been loaded before, so that it succeeds even
without a log; that it may fail then is covered by `Ev.fail`. -/
def World.uuid (w : World) (s : Nat) (n : String) : Option Table := (w.session s).find n

/-- After the schema is reloaded: the first lookup, or the whole effect of RENAME. -/
def World.begin (w : World) (i s : Nat) : Stmt → World
  -- `plan_to_delta_table`, `src/context/delta.rs` 388
  | .insert n _ =>
    match w.uuid s n with
    | none => w.goto i (.finished false)
    | some u => w.goto i (.named u)
  -- UPDATE: `src/context/physical.rs` 231-232
  | .modify false n _ _ =>
    match w.look s n with
    | none => w.goto i (.finished false)
    | some (t, l) => w.goto i (.found t l)
  -- DELETE: `src/context/physical.rs` 378
  | .modify true n _ _ =>
    match w.uuid s n with
    | none => w.goto i (.finished false)
    | some u => w.goto i (.named u)
  -- `src/context/physical.rs` 669-671
  | .truncate n =>
    match w.look s n with
    | none => w.goto i (.finished false)
    | some (t, l) => w.goto i (.found t l)
  -- `src/context/physical.rs` 718-731
  | .vacuum n =>
    match w.look s n with
    | none => w.goto i (.finished false)
    | some (t, l) => w.goto i (.found t l)
  -- `src/context/physical.rs` 504-506 and `delete_delta_table`, `src/context/delta.rs` 443-460: everything in the directory of the
  -- table the session knows is deleted; an error is only logged.  The files are deleted one after the other, here in one
  -- step.  `IF EXISTS` and staging tables are not modelled.
  | .drop n =>
    match w.look s n with
    | none => w.goto i .erased
    | some (t, _) => { w with log := set w.log t none, dir := set w.dir t [] }.goto i .erased
  -- `src/context/physical.rs` 648-658: one UPDATE of the metastore; the new name must be free
  | .rename n m =>
    match w.catalog.find n, w.catalog.find m with
    | some _, none =>
      { w with catalog := w.catalog.map fun (e : String × Table) => if e.1 == n then (m, e.2) else e }.goto i (.finished true)
    | _, _ => w.goto i (.finished false)
  -- `src/context/delta.rs` 304-318: a new directory with an empty log
  | .create _ =>
    { w with log := set w.log w.next (some ⟨[], []⟩), dir := set w.dir w.next [], next := w.next + 1 }.goto i (.made w.next)

/-- The second step of a statement that looked up the directory first. -/
def World.afterName (w : World) (i s : Nat) (u : Table) : Stmt → World
  -- INSERT writes its files, `src/context/delta.rs` 390-401
  | .insert _ k => { w with dir := set w.dir u (w.dir u ++ files i k) }.goto i (.wrote u [] (files i k))
  -- DELETE: `src/context/physical.rs` 380-381
  | .modify _ n _ _ =>
    match w.look s n with
    | none => w.goto i (.finished false)
    | some (t, l) => w.goto i (.both t l u)
  | _ => w

/-- The second step of a statement that looked up the table first. -/
def World.afterTable (w : World) (i s : Nat) (t : Table) (l : Log) : Stmt → World
  -- UPDATE: `src/context/physical.rs` 301
  | .modify _ n _ _ =>
    match w.uuid s n with
    | none => w.goto i (.finished false)
    | some u => w.goto i (.both t l u)
  -- `src/context/physical.rs` 672-701: nothing is written
  | .truncate _ => w.goto i (.wrote t l.live [])
  -- `src/context/physical.rs` 732-741: with no retention period the tombstones of the loaded version are deleted
  | .vacuum _ => { w with dir := set w.dir t ((w.dir t).filter fun p => !l.dead.contains p) }.goto i (.finished true)
  | _ => w

/-- UPDATE and DELETE write the new files to the directory `u` (`src/context/physical.rs` 303-332, 395-451); nothing if no file
is affected. -/
def World.rewrite (w : World) (i : Nat) (t : Table) (l : Log) (u : Table) : Stmt → World
  | .modify _ _ pick k =>
    let removes := l.live.filter pick
    let adds := if removes.isEmpty then [] else files i k
    { w with dir := set w.dir u (w.dir u ++ adds) }.goto i (.wrote t removes adds)
  | _ => w

/-- `commit_delta_table` (`src/context/delta.rs` 428-440): refused if a file to remove is no longer part of the table (see
`Verif/Dml/Races.lean` for the conflict check in detail) or if the table has no log. -/
def World.commit (w : World) (i : Nat) (t : Table) (removes adds : List Path) : World :=
  match w.log t with
  | none => w.goto i (.finished false)
  | some l =>
    if removes.all fun p => l.live.contains p then
      { w with log := set w.log t (some ⟨l.live.filter (fun p => !removes.contains p) ++ adds, l.dead ++ removes⟩) }.goto i
        (.finished true)
    else w.goto i (.finished false)

/-- CREATE TABLE enters the table in the metastore, where the name must be free, and in the session
(`src/context/delta.rs` 365-377). -/
def World.enter (w : World) (i s : Nat) (u : Table) : Stmt → World
  | .create n =>
    match w.catalog.find n with
    | some _ => w.goto i (.finished false)
    | none =>
      { w with catalog := w.catalog ++ [(n, u)], session := set w.session s ((n, u) :: w.session s) }.goto i (.finished true)
  | _ => w

/-- DROP TABLE deletes the entry of the metastore that has the name now (`src/context/physical.rs` 508-515). -/
def World.forget (w : World) (i : Nat) : Stmt → World
  | .drop n =>
    match w.catalog.find n with
    | none => w.goto i (.finished false)
    | some _ => { w with catalog := w.catalog.filter fun e => e.1 != n }.goto i (.finished true)
  | _ => w

/-- One step of statement `i`, up to its next `await`. -/
def World.step (w : World) (i : Nat) : World :=
  match w.threads[i]? with
  | none => w
  | some t =>
    match t.stage with
    -- `reload_schema` (`src/context/mod.rs` 89-113, called in `src/context/logical.rs` 89) reads the metastore ...
    | .start => w.goto i (.listed w.catalog)
    -- ... and registers what it read
    | .listed c => { w with session := set w.session t.session c }.goto i .ready
    | .ready => w.begin i t.session t.stmt
    | .found a l => w.afterTable i t.session a l t.stmt
    | .named u => w.afterName i t.session u t.stmt
    | .both a l u => w.rewrite i a l u t.stmt
    | .wrote a removes adds => w.commit i a removes adds
    | .made u => w.enter i t.session u t.stmt
    | .erased => w.forget i t.stmt
    | .finished _ => w

/-- Statement `i` fails in its next operation, which has no effect.  A DROP whose deletion of files fails goes on
(`src/context/physical.rs` 504-506); one that cannot delete the entry, or is interrupted there, stays at `erased`. -/
def World.fail (w : World) (i : Nat) : World :=
  match w.threads[i]? with
  | none => w
  | some t =>
    match t.stage, t.stmt with
    | .erased, _ => w
    | .ready, .drop _ => w.goto i .erased
    | .finished _, _ => w
    | _, _ => w.goto i (.finished false)

inductive Ev where
  | run (i : Nat)
  | fail (i : Nat)
deriving DecidableEq, Repr

def World.apply (w : World) : Ev → World
  | .run i => w.step i
  | .fail i => w.fail i

/-- A schedule: any interleaving of the steps of all statements. -/
def World.exec (w : World) (es : List Ev) : World := es.foldl World.apply w

/-- The statements, each with its session, before any of them starts. -/
def World.admit (w : World) (ss : List (Stmt × Nat)) : World :=
  { w with threads := ss.map fun s => ⟨s.1, s.2, .start⟩ }

end Seafowl.Lookups
