import Verif.Sync.Prune

/-!
# Replication into a table that is written to by others at the same time (C135)

`flush_syncs` (/repo/src/sync/writer.rs 412-490) loads the newest version of the table, selects the files that may
contain affected keys (`prune_partitions`, Sync/Prune.lean), joins their rows with the changes, writes new files
(`plan_to_delta_adds`) and commits additions and removals with `commit_delta_table`
(/repo/src/context/delta.rs 428-440) as `DeltaOperation::Write { mode: Append, predicate: None }` (writer.rs 480-485).
Between the load and the commit other writers may commit: another server that replicates into the same location, or
INSERT, UPDATE and DELETE statements (physical.rs 213-484, see Dml/Races.lean).  As described there, the `CommitBuilder`
of delta-rs rejects the commit only if a file it removes was removed since the version that was loaded.

Simplified: the table exists and its schema does not change; NULL in predicates of statements is left out (C26, C89);
an INSERT does not read the table (C128); a writer that fails or is interrupted does not go on (the next
attempt of the server is one more writer).
-/

namespace Seafowl.Shared

open Seafowl.Sync

/-- A data file in the log.  The name is that of the writer (plus one; 0: before all) and a number; the code draws a UUID
(`plan_to_delta_adds`, delta.rs 160-175). -/
structure TFile where
  path : Nat × Nat
  file : DFile

/-- What a writer does. -/
inductive Work where
  /-- `flush_syncs` of these squashed items. -/
  | flush (items : List SItem)
  /-- INSERT of rows. -/
  | insert (rows : List TRow)
  /-- UPDATE (`g x = some y`) and DELETE (`g x = none`) of the rows with `p x`. -/
  | modify (p : TRow → Bool) (g : TRow → Option TRow)

/-- The writers, and what is not fixed by them. -/
structure Sys where
  works : List Work
  /-- The columns of the table. -/
  full : List String
  /-- For which columns a snapshot with these files returns minima (see `Snapshot`). -/
  hasMin : List DFile → String → Bool
  /-- The same for maxima. -/
  hasMax : List DFile → String → Bool
  /-- `PruningPredicate::prune` of UPDATE and DELETE (physical.rs 275-291, 400-411). -/
  prune : Nat → DFile → Bool
  /-- `plan_to_delta_adds` (delta.rs 98-265): how rows are distributed over files, with their statistics (C27, C28). -/
  cut : List TRow → List DFile

/-- How far a writer is. -/
inductive Stage where
  | start
  /-- It has written its files, based on the version of the table with this number. -/
  | ready (version : Nat) (adds : List TFile) (removes : List (Nat × Nat))
  /-- It has committed. -/
  | done
  | failed

/-- The newest version of the table, its log (the writer of an entry and the files the entry removes, oldest first)
and the writers. -/
structure State where
  files : List TFile
  log : List (Nat × List (Nat × Nat))
  stage : Nat → Stage

/-- Something happens. -/
inductive Ev where
  /-- The writer does its next step. -/
  | run (i : Nat)
  /-- The writer is interrupted. -/
  | fail (i : Nat)
deriving DecidableEq, Repr

/-- The contents of the files. -/
def contents (fs : List TFile) : List DFile := fs.map (·.file)

/-- The rows of the files. -/
def rowsOf (fs : List TFile) : List TRow := fileRows (contents fs)

/-- The files in which a writer stores these rows. -/
def write (sys : Sys) (i : Nat) (rows : List TRow) : List TFile :=
  (sys.cut rows).zipIdx.map (fun c => { path := (i + 1, c.2), file := c.1 })

/-- Which of the files are rewritten.  `none` is a panic. -/
def pick (sys : Sys) (i : Nat) : Work → List DFile → Option (List Bool)
  | .flush items, fs => prunePartitions { files := fs, hasMin := sys.hasMin fs, hasMax := sys.hasMax fs } items
  | .insert _, fs => some (fs.map (fun _ => false))
  | .modify _ _, fs => some (fs.map (sys.prune i))

/-- What a row becomes in UPDATE (`project_expressions`, /repo/src/provider.rs 140-182) and DELETE (the filter
`NOT p`, physical.rs 419-434). -/
def change (p : TRow → Bool) (g : TRow → Option TRow) (x : TRow) : Option TRow := if p x then g x else some x

/-- What the rows of the selected files become.  `none` is a panic. -/
def rewrite (full : List String) : Work → List TRow → Option (List TRow)
  | .flush items, base => flushRows full items base
  | .insert rows, base => some (base ++ rows)
  | .modify p g, base => some (base.filterMap (change p g))

/-- The first step of a writer: load, plan and write the new files. -/
def prepare (sys : Sys) (s : State) (i : Nat) (w : Work) : Stage :=
  match pick sys i w (contents s.files) with
  | none => .failed
  | some keep =>
    let touched := ((s.files.zip keep).filter (·.2)).map (·.1)
    match rewrite sys.full w (rowsOf touched) with
    | none => .failed
    | some out => .ready s.log.length (write sys i out) (touched.map (·.path))

/-- The conflict check: a file this writer removes was removed by an entry written since. -/
def conflict (s : State) (version : Nat) (removes : List (Nat × Nat)) : Bool :=
  (s.log.drop version).any (fun e => e.2.any (fun p => removes.contains p))

/-- The stage of one writer changes. -/
def setStage (s : State) (i : Nat) (st : Stage) : State :=
  { s with stage := fun j => if j = i then st else s.stage j }

/-- The second step of a writer: `commit_delta_table`. -/
def commit (s : State) (i version : Nat) (adds : List TFile) (removes : List (Nat × Nat)) : State :=
  if conflict s version removes then setStage s i .failed
  else
    setStage { s with files := s.files.filter (fun f => !removes.contains f.path) ++ adds
                      log := s.log ++ [(i, removes)] } i .done

/-- One event. -/
def step (sys : Sys) (s : State) : Ev → State
  | .run i =>
    match sys.works[i]?, s.stage i with
    | some w, .start => setStage s i (prepare sys s i w)
    | some _, .ready v adds removes => commit s i v adds removes
    | _, _ => s
  | .fail i =>
    match s.stage i with
    | .start => setStage s i .failed
    | .ready _ _ _ => setStage s i .failed
    | _ => s

/-- The table at the beginning. -/
def initial (init : List DFile) : State where
  files := init.zipIdx.map (fun c => { path := (0, c.2), file := c.1 })
  log := []
  stage := fun _ => .start

/-- Events in a row. -/
def run (sys : Sys) (init : List DFile) (evs : List Ev) : State := evs.foldl (step sys) (initial init)

end Seafowl.Shared
