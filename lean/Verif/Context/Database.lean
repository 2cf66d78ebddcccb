import Verif.Sql.TimeTravel
import Mathlib.Data.List.Forall2

/-!
# The server as a database (C130)

The statements of one client, one after the other, on the pieces the server is made of: the metastore with its entries
and recorded versions, and the object store with a directory per table, in it a Delta log and data files.  Each statement is
the sequence of operations on these that the code performs, and any of them may fail or be the last before a crash.

Simplified: one schema of one database; rows of arbitrary type; queries are functions of the tables they read, which do not
depend on the order of rows; predicates are true or false for every row (NULL: C26, C89).  The registered catalog is the
metastore as it was when the statement began (`reload_schema`, /repo/src/context/mod.rs 89-113), hence current for a single
client.  Parsing, planning, the distribution of rows over row groups and files, and the metastore itself have models of their
own (C25, C27, C31, C46, C81).
-/

namespace Seafowl.Database

open Seafowl.TimeTravel (loadVersion)

variable {ρ : Type}

/-- An entry of the Delta log, with the time of its creation.  The names of data files are drawn as UUIDs
(/repo/src/context/delta.rs 153), here they are numbers. -/
structure Commit where
  time : Nat
  adds : List Nat
  removes : List Nat
deriving DecidableEq, Repr

/-- A table in the metastore: name, UUID and the recorded Delta versions, oldest first. -/
structure Entry where
  name : String
  uuid : Nat
  versions : List Nat
deriving DecidableEq, Repr

/-- Metastore, object store, and what is drawn next: a UUID, the name of a file, the time. -/
structure World (ρ : Type) where
  entries : List Entry
  log : Nat → List Commit
  files : Nat → Nat → Option (List ρ)
  uuid : Nat
  path : Nat
  now : Nat

/-- A fresh server. -/
def World.empty : World ρ where
  entries := []
  log := fun _ => []
  files := fun _ _ => none
  uuid := 0
  path := 0
  now := 0

/-! ### reading -/

/-- The files of the newest version of a log: the state that delta-rs computes from it. -/
def live : List Commit → List Nat
  | log => log.foldl (fun l c => l.filter (fun p => !c.removes.contains p) ++ c.adds) []

/-- The rows of some files; fails if one is missing. -/
def readAll (f : Nat → Option (List ρ)) : List Nat → Option (List ρ)
  | [] => some []
  | p :: ps =>
    match f p, readAll f ps with
    | some r, some rs => some (r ++ rs)
    | _, _ => none

/-- The rows of a version of a table. -/
def World.rowsAt (w : World ρ) (u v : Nat) : Option (List ρ) := readAll (w.files u) (live ((w.log u).take (v + 1)))

/-- The entry of a name. -/
def World.find (w : World ρ) (n : String) : Option Entry := w.entries.find? fun e => e.name == n

/-- `try_get_delta_table` (/repo/src/context/mod.rs 172-183) and `load`: a table without log is not found. -/
def World.look (w : World ρ) (n : String) : Option Entry :=
  match w.find n with
  | none => none
  | some e => if (w.log e.uuid).isEmpty then none else some e

/-- The number of the newest version. -/
def World.latest (w : World ρ) (u : Nat) : Nat := (w.log u).length - 1

/-- A table in a query: `t` or `t('time')` (`rewrite_time_travel_query`, /repo/src/context/logical.rs 335-388). -/
def World.read (w : World ρ) (r : String × Option Nat) : Option (List ρ) :=
  match w.look r.1 with
  | none => none
  | some e =>
    match r.2 with
    | none => w.rowsAt e.uuid (w.latest e.uuid)
    | some t => w.rowsAt e.uuid (loadVersion (fun v => (((w.log e.uuid)[v]?).map (·.time)).getD 0) 0 (w.latest e.uuid) t)

/-- A query: the tables it names and what it computes from their rows.  The order of the rows of a table does not
matter. -/
structure Query (ρ : Type) where
  reads : List (String × Option Nat)
  eval : List (List ρ) → List ρ
  order : ∀ xs ys, List.Forall₂ List.Perm xs ys → (eval xs).Perm (eval ys)

/-- Planning and execution of a query. -/
def World.query (w : World ρ) (q : Query ρ) : Option (List ρ) := (q.reads.mapM w.read).map q.eval

/-! ### operations -/

/-- The operations on the metastore and the object store. -/
inductive Op (ρ : Type) where
  /-- upload of a data file -/
  | put (u : Nat) (p : Nat) (rows : List ρ)
  /-- a new Delta log, with the version 0 -/
  | mk (u : Nat)
  /-- a new entry of a log -/
  | commit (u : Nat) (adds removes : List Nat)
  /-- a new table in the metastore, with the version 0 -/
  | enter (n : String) (u : Nat)
  /-- the newest version of a table is recorded in the metastore -/
  | record (u : Nat)
  /-- a data file is deleted -/
  | erase (u : Nat) (p : Nat)
  /-- a log is deleted -/
  | eraseLog (u : Nat)
  /-- the table is deleted from the metastore -/
  | forget (n : String)
  | rename (n m : String)
  /-- old versions are deleted from the metastore -/
  | prune (n : String)

def set {α : Type} (f : Nat → α) (k : Nat) (v : α) : Nat → α := fun x => if x = k then v else f x

/-- What an operation does. -/
def World.apply (w : World ρ) : Op ρ → World ρ
  | .put u p rows => { w with files := set w.files u (set (w.files u) p (some rows)), path := max w.path (p + 1) }
  | .mk u => { w with log := set w.log u [⟨w.now, [], []⟩], uuid := max w.uuid (u + 1), now := w.now + 1 }
  | .commit u adds removes => { w with log := set w.log u (w.log u ++ [⟨w.now, adds, removes⟩]), now := w.now + 1 }
  | .enter n u => { w with entries := w.entries ++ [⟨n, u, [0]⟩] }
  | .record u => { w with
      entries := w.entries.map fun e => if e.uuid = u then { e with versions := e.versions ++ [w.latest u] } else e }
  | .erase u p => { w with files := set w.files u (set (w.files u) p none) }
  | .eraseLog u => { w with log := set w.log u [] }
  | .forget n => { w with entries := w.entries.filter fun e => e.name != n }
  | .rename n m => { w with entries := w.entries.map fun e => if e.name == n then { e with name := m } else e }
  | .prune n => { w with entries := w.entries.map fun e =>
      if e.name == n then { e with versions := e.versions.drop (e.versions.length - 1) } else e }

def World.applyAll (w : World ρ) (ops : List (Op ρ)) : World ρ := ops.foldl World.apply w

/-! ### statements -/

inductive Stmt (ρ : Type) where
  | create (n : String)
  | createAs (n : String) (q : Query ρ)
  | insert (n : String) (q : Query ρ)
  /-- UPDATE (`g x = some y`) and DELETE (`g x = none`) of the rows with `p x` -/
  | modify (n : String) (p : ρ → Bool) (g : ρ → Option ρ)
  | truncate (n : String)
  | vacuum (n : String)
  | drop (n : String)
  | rename (n m : String)
  | select (q : Query ρ)
  /-- time passes -/
  | wait (d : Nat)

/-- What the client is told: success, rows, that the statement cannot be executed, or that something failed (or nothing at
all, after a crash). -/
inductive Res (ρ : Type) where
  | ok
  | rows (r : List ρ)
  | refused
  | failed
deriving DecidableEq, Repr

/-- What is not fixed by the statements: how rows are distributed over files (`plan_to_delta_adds`,
/repo/src/context/delta.rs 98-265; C27), and which files may contain rows that satisfy a predicate
(`PruningPredicate::prune`, /repo/src/context/physical.rs 275-291, 400-411; C25). -/
structure Env (ρ : Type) where
  cut : List ρ → List (List ρ)
  keep : (ρ → Bool) → List ρ → Bool
  /-- does the library enter the start and the end of a VACUUM in the log? -/
  mark : Bool

/-- What a row becomes: `CASE WHEN p THEN g ELSE x` (/repo/src/provider.rs 140-182), or the filter `NOT p`
(/repo/src/context/physical.rs 419-434). -/
def change (p : ρ → Bool) (g : ρ → Option ρ) (x : ρ) : Option ρ := if p x then g x else some x

/-- The operations of a statement.  An error in the `soft` ones is logged and the rest of them skipped. -/
structure Plan (ρ : Type) where
  soft : List (Op ρ)
  hard : List (Op ρ)
  res : Res ρ

def Plan.refuse : Plan ρ := ⟨[], [], .refused⟩

/-- The uploads of `plan_to_delta_adds`: one file for each part of the rows. -/
def puts (u : Nat) : Nat → List (List ρ) → List (Op ρ)
  | _, [] => []
  | p, c :: cs => .put u p c :: puts u (p + 1) cs

/-- The names of the files it uploads. -/
def names : Nat → List (List ρ) → List Nat
  | _, [] => []
  | p, _ :: cs => p :: names (p + 1) cs

/-- `plan_to_delta_table` (/repo/src/context/delta.rs 382-426). -/
def store (E : Env ρ) (u : Nat) (p : Nat) (rows : List ρ) : List (Op ρ) :=
  puts u p (E.cut rows) ++ [.commit u (names p (E.cut rows)) [], .record u]

/-- The files a predicate may concern. -/
def touched (E : Env ρ) (f : Nat → Option (List ρ)) (p : ρ → Bool) (l : List Nat) : List Nat :=
  l.filter fun x => E.keep p ((f x).getD [])

/-- The tombstones: files that an entry of the log removes and that are not part of the newest version. -/
def dead (log : List Commit) : List Nat := (log.flatMap (·.removes)).filter fun p => !(live log).contains p

/-- The operations of each statement. -/
def World.plan (E : Env ρ) (w : World ρ) : Stmt ρ → Plan ρ
  -- `create_delta_table` (/repo/src/context/delta.rs 274-380): the directory is made before the metastore refuses the name
  | .create n =>
    match w.find n with
    | some _ => ⟨[], [.mk w.uuid], .refused⟩
    | none => ⟨[], [.mk w.uuid, .enter n w.uuid], .ok⟩
  -- CREATE TABLE AS (/repo/src/context/physical.rs 159-191)
  | .createAs n q =>
    match w.query q with
    | none => .refuse
    | some rows =>
      match w.find n with
      | some _ => ⟨[], [.mk w.uuid], .refused⟩
      | none => ⟨[], [.mk w.uuid, .enter n w.uuid] ++ store E w.uuid w.path rows, .ok⟩
  -- /repo/src/context/physical.rs 192-215
  | .insert n q =>
    match w.query q, w.look n with
    | some rows, some e => ⟨[], store E e.uuid w.path rows, .ok⟩
    | _, _ => .refuse
  -- /repo/src/context/physical.rs 216-368, 369-484
  | .modify n p g =>
    match w.look n with
    | none => .refuse
    | some e =>
      let removes := touched E (w.files e.uuid) p (live (w.log e.uuid))
      match readAll (w.files e.uuid) removes with
      | none => .refuse
      | some rows =>
        if removes.isEmpty then ⟨[], [.commit e.uuid [] [], .record e.uuid], .ok⟩
        else
          let parts := E.cut (rows.filterMap (change p g))
          ⟨[], puts e.uuid w.path parts ++ [.commit e.uuid (names w.path parts) removes, .record e.uuid], .ok⟩
  -- /repo/src/context/physical.rs 666-704: the version is not recorded
  | .truncate n =>
    match w.look n with
    | none => .refuse
    | some e => ⟨[], [.commit e.uuid [] (live (w.log e.uuid))], .ok⟩
  -- /repo/src/context/physical.rs 705-766
  | .vacuum n =>
    match w.look n with
    | none => .refuse
    | some e =>
      let m := if E.mark && !(dead (w.log e.uuid)).isEmpty then [.commit e.uuid [] []] else []
      ⟨[], m ++ (dead (w.log e.uuid)).map (.erase e.uuid ·) ++ m ++ [.prune n], .ok⟩
  -- /repo/src/context/physical.rs 486-519, `delete_delta_table` (/repo/src/context/delta.rs 443-460)
  | .drop n =>
    match w.find n with
    | none => .refuse
    | some e => ⟨.eraseLog e.uuid :: (List.range w.path).map (.erase e.uuid ·), [.forget n], .ok⟩
  -- /repo/src/context/logical.rs 190-207, /repo/src/context/physical.rs 634-660
  | .rename n m =>
    match w.look n, w.find m with
    | some _, none => ⟨[], [.rename n m], .ok⟩
    | _, _ => .refuse
  | .select q =>
    match w.query q with
    | none => .refuse
    | some r => ⟨[], [], .rows r⟩
  | .wait _ => ⟨[], [], .ok⟩

/-- What goes wrong: an operation fails, or the server stops, after `k` operations. -/
inductive Fault where
  | none
  | error (k : Nat)
  | crash (k : Nat)
deriving DecidableEq, Repr

/-- The execution of a plan. -/
def World.carry (w : World ρ) (P : Plan ρ) : Fault → World ρ × Res ρ
  | .none => (w.applyAll (P.soft ++ P.hard), P.res)
  | .error k =>
    if k < P.soft.length then (w.applyAll (P.soft.take k ++ P.hard), P.res)
    else if k < (P.soft ++ P.hard).length then (w.applyAll ((P.soft ++ P.hard).take k), .failed)
    else (w.applyAll (P.soft ++ P.hard), P.res)
  | .crash k =>
    if k < (P.soft ++ P.hard).length then (w.applyAll ((P.soft ++ P.hard).take k), .failed)
    else (w.applyAll (P.soft ++ P.hard), P.res)

/-- The execution of a statement. -/
def World.exec (E : Env ρ) (w : World ρ) (s : Stmt ρ) (f : Fault) : World ρ × Res ρ :=
  match s with
  | .wait d => ({ w with now := w.now + d }, .ok)
  | s => w.carry (w.plan E s) f

/-- The statements of a client, one after the other, and what it is told. -/
def World.run (E : Env ρ) : World ρ → List (Stmt ρ × Fault) → World ρ × List (Res ρ)
  | w, [] => (w, [])
  | w, (s, f) :: rest =>
    let r := w.exec E s f
    let t := World.run E r.1 rest
    (t.1, r.2 :: t.2)

end Seafowl.Database
