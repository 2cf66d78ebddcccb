/-!
# Statements that run at the same time (context/mod.rs, context/logical.rs, provider.rs, handler.rs, http.rs)

Each statement first lists the tables of its metastore (`build_catalog`), registers the resulting catalog in
its session (`reload_schema`), and then looks up the tables it names in the catalog that is registered *at that
moment*.  Contexts made by `scope_to` have a session of their own; `with_metastore` and the requests without a
search path or another database use the session of the server.  A `SessionContext` and the list of catalogs in it
are shared by all clones (DataFusion keeps them behind `Arc`s).

The steps of a statement between which others can run are those separated by `await` in the code.  Names are
names of tables with their schema.  A place (`Nat`) stands for the location of a table, see `Verif.Catalog.Meta`,
and `log` has the latest version of each.  Not modelled: errors while listing and loading, functions, what is done with the tables.
-/

namespace Seafowl.Session

/-- A table name, or the name of an explicit version of it (`TableVersionProcessor::table_with_version`). -/
abbrev Name := String × Option Nat

/-- The tables of a metastore: the place of each name. -/
abbrev Content := String → Option Nat

/-- A table in a catalog; `ver = none`: not yet loaded (version -1 in delta-rs). -/
structure Entry where
  place : Nat
  ver : Option Nat
  deriving DecidableEq, Repr

/-- What a statement does with the catalog: look up a name, or make an explicit version of a table known
(`rewrite_time_travel_query`, logical.rs 360-384). -/
inductive Act where
  | find (n : Name)
  | travel (n : String) (v : Nat)
  deriving DecidableEq, Repr

/-- The name that is looked up; for a version, that of the table (`get_table_uuid`, logical.rs 369). -/
def Act.name : Act → Name
  | .find n => n
  | .travel n _ => (n, none)

/-- The session of a request: that of the server, one scoped to a search path (handler.rs 73-84) or to a
database (http.rs 168-170, 335-337). -/
inductive Scope where
  | shared
  | searchPath
  | database (c : String)
  deriving DecidableEq, Repr

structure Request where
  scope : Scope
  inline : Option Content
  acts : List Act

/-- Where a statement is. -/
inductive Pc where
  | list
  | register (c : Content)
  | look
  | load (cat p : Nat)
  | insert (cat p v : Nat)
  | put (p : Nat)
  | done
  | failed

structure Th where
  sess : Nat
  cat : String
  inline : Option Content
  acts : List Act
  pc : Pc
  pos : Nat
  listed : Option Content
  results : List (Name × Option (Nat × Nat))

/-- The server: the catalogs registered in each session, the catalogs, the metastore of the server by database, the
latest versions, and the running statements. -/
structure Sys where
  reg : Nat → String → Option Nat
  heap : Nat → Name → Option Entry
  nextCat : Nat
  nextSess : Nat
  server : String → Content
  log : Nat → Nat
  threads : List Th

/-- Session 0 is that of the server. -/
def Sys.init (server : String → Content) (log : Nat → Nat) : Sys :=
  ⟨fun _ _ => none, fun _ _ => none, 0, 1, server, log, []⟩

/-- The metastore a statement lists: the one sent with it, or that of the server (handler.rs 86-92). -/
def Sys.content (S : Sys) (t : Th) : Content :=
  match t.inline with
  | some c => c
  | none => S.server t.cat

def Scope.cat : Scope → String
  | .database c => c
  | _ => "default"

/-- A request starts: `scope_to` makes a new session (context/mod.rs 45-63), `with_metastore` does not (73-82). -/
def Sys.admit (S : Sys) (r : Request) : Sys :=
  let t (sess : Nat) : Th := ⟨sess, r.scope.cat, r.inline, r.acts, .list, 0, none, []⟩
  match r.scope with
  | .shared => { S with threads := S.threads ++ [t 0] }
  | _ => { S with threads := S.threads ++ [t S.nextSess], nextSess := S.nextSess + 1 }

/-- The catalog built from a listing; no table is loaded (metastore.rs 167-171). -/
def fresh (c : Content) : Name → Option Entry
  | (n, none) => (c n).map (⟨·, none⟩)
  | (_, some _) => none

def setHeap (h : Nat → Name → Option Entry) (k : Nat) (n : Name) (e : Entry) : Nat → Name → Option Entry :=
  fun k' n' => if k' = k ∧ n' = n then some e else h k' n'

/-- A table was found: a lookup is answered; for an explicit version the table of that version is registered next. -/
def Th.found (t : Th) (a : Act) (p v : Nat) : Th :=
  match a with
  | .find n => { t with results := t.results ++ [(n, some (p, v))], pos := t.pos + 1, pc := .look }
  | .travel _ _ => { t with pc := .put p }

/-- A table was not found: the statement fails. -/
def Th.missing (t : Th) (a : Act) : Th := { t with results := t.results ++ [(a.name, none)], pc := .failed }

/-- `SeafowlSchema::table` up to the first `await` (provider.rs 85-101). -/
def Sys.lookTh (S : Sys) (t : Th) : Th :=
  match t.acts[t.pos]? with
  | none => { t with pc := .done }
  | some a =>
    match S.reg t.sess t.cat with
    | none => t.missing a
    | some k =>
      match S.heap k a.name with
      | none => t.missing a
      | some ⟨p, some v⟩ => t.found a p v
      | some ⟨p, none⟩ => { t with pc := .load k p }

/-- One step of a statement. -/
def Sys.step (S : Sys) (i : Nat) : Sys :=
  match S.threads[i]? with
  | none => S
  | some t =>
    match t.pc with
    | .list =>  -- `self.metastore.build_catalog` (context/mod.rs 103)
      { S with threads := S.threads.set i { t with pc := .register (S.content t), listed := some (S.content t) } }
    | .register c =>  -- `self.inner.register_catalog` (101)
      { S with
        reg := fun s n => if s = t.sess ∧ n = t.cat then some S.nextCat else S.reg s n
        heap := fun k n => if k = S.nextCat then fresh c n else S.heap k n
        nextCat := S.nextCat + 1
        threads := S.threads.set i { t with pc := .look } }
    | .look => { S with threads := S.threads.set i (S.lookTh t) }
    | .load k p =>  -- `delta_table.load()` (provider.rs 103)
      { S with threads := S.threads.set i { t with pc := .insert k p (S.log p) } }
    | .insert k p v =>  -- `self.tables.insert` (116-117)
      match t.acts[t.pos]? with
      | none => S
      | some a =>
        { S with heap := setHeap S.heap k a.name ⟨p, some v⟩, threads := S.threads.set i (t.found a p v) }
    | .put p =>  -- logical.rs 375-383
      match t.acts[t.pos]?, S.reg t.sess t.cat with
      | some (.travel n v), some k =>
        { S with
          heap := if (S.heap k (n, some v)).isSome then S.heap else setHeap S.heap k (n, some v) ⟨p, some v⟩
          threads := S.threads.set i { t with pos := t.pos + 1, pc := .look } }
      | _, _ => { S with threads := S.threads.set i { t with pc := .failed } }
    | .done | .failed => S

/-- What happens: a request arrives, a statement makes a step, the tables of a database change, a table gets a new
version. -/
inductive Ev where
  | admit (r : Request)
  | step (i : Nat)
  | ddl (cat : String) (c : Content)
  | commit (p : Nat)

def Sys.apply (S : Sys) : Ev → Sys
  | .admit r => S.admit r
  | .step i => S.step i
  | .ddl cat c => { S with server := fun n => if n = cat then c else S.server n }
  | .commit p => { S with log := fun q => if q = p then S.log q + 1 else S.log q }

def Sys.run (S : Sys) (es : List Ev) : Sys := es.foldl Sys.apply S

end Seafowl.Session
