/-
Time travel: `SELECT … FROM t('2022-01-01 20:01:01Z')`.

Modelled: /repo/src/version.rs 13-35 (`TableVersionProcessor`, `table_with_version`), 37-58
(`version_to_datetime`; the timestamp parser itself is a parameter), 61-105
(`pre_visit_table_factor`); /repo/src/context/logical.rs 335-388 (`rewrite_time_travel_query`).
The search for the version (`DeltaTable::load_with_datetime`) is library code; it is modelled as a
binary search over the commit timestamps (`loadAt`), see DESIGN.md.

A query is represented by the list of its table factors: the visitor reaches every one of them,
wherever it stands.
-/
namespace Seafowl.TimeTravel

abbrev Str := List Char

/-- ASCII lower case (`to_ascii_lowercase`). -/
def lowerC (c : Char) : Char := if 'A' ≤ c ∧ c ≤ 'Z' then Char.ofNat (c.toNat + 32) else c

def lower (s : Str) : Str := s.map lowerC

/-- `Ident`: text and whether it is quoted. -/
structure Ident where
  value : Str
  quoted : Bool
  deriving DecidableEq, Repr

/-- What the planner and `TableReference::from` make of an identifier. -/
def Ident.norm (i : Ident) : Str := if i.quoted then i.value else lower i.value

/-- `TableFactor::Table`: name of up to three parts, possibly with a single string argument. -/
structure TRef where
  catalog : Option Ident
  schema : Option Ident
  table : Ident
  version : Option Str
  deriving DecidableEq, Repr

/-- A fully resolved name. -/
structure Full where
  cat : Str
  sch : Str
  tab : Str
  deriving DecidableEq, Repr

/-- `TableReference::resolve`. -/
def TRef.resolve (dc ds : Str) (r : TRef) : Full :=
  ⟨(r.catalog.map Ident.norm).getD dc, (r.schema.map Ident.norm).getD ds, r.table.norm⟩

/-- `DEFAULT_SCHEMA`. -/
def publicSchema : Str := ['p', 'u', 'b', 'l', 'i', 'c']

/-- `table_with_version` (version.rs 28-34): `{table}:{version in lower case}`. -/
def withVersion (tab v : Str) : Str := tab ++ ':' :: lower v

/-- The name rewrite of `pre_visit_table_factor` (version.rs 78-98): the last part becomes
`table:version`, the quote style and the other parts stay, the argument is dropped. -/
def rewriteRef (r : TRef) : TRef :=
  match r.version with
  | none => r
  | some v => { r with table := { r.table with value := withVersion r.table.norm v }, version := none }

/-- The `(full name, version)` pairs collected (version.rs 79-92).  The processor is built with
`DEFAULT_SCHEMA`, not with the session's default schema (logical.rs 336-339). -/
def entries (dc : Str) (refs : List TRef) : List (Full × Str) :=
  refs.filterMap fun r => r.version.map fun v => (r.resolve dc publicSchema, v)

/-- `TableReference::from(table.to_string())` (logical.rs 361-363): the full name is printed with
unquoted identifiers and parsed again, which folds it to lower case. -/
def reparse (f : Full) : Full := ⟨lower f.cat, lower f.sch, lower f.tab⟩

/-- A table provider: which table, at which version. -/
structure Prov where
  uuid : Nat
  version : Nat
  deriving DecidableEq, Repr

/-- Tables by full name, as the planner sees them. -/
abbrev Session := Full → Option Prov

/-- What rewriting depends on: the timestamp parser and the version search. -/
structure Env where
  parse : Str → Option Int
  loadAt : Nat → Int → Option Nat

/-- One round of the registration loop (logical.rs 357-383). -/
def registerOne (E : Env) (base : Session) (s : Session) (e : Full × Str) : Option Session :=
  match base (reparse e.1) with
  | none => none
  | some p =>
    match E.parse e.2 with
    | none => none
    | some t =>
      match E.loadAt p.uuid t with
      | none => none
      | some n =>
        let key : Full := { reparse e.1 with tab := withVersion e.1.tab e.2 }
        if (s key).isSome then some s
        else some fun f => if f = key then some ⟨p.uuid, n⟩ else s f

/-- The loop, over the set in some order; any error ends the query. -/
def registerAll (E : Env) (base : Session) : Session → List (Full × Str) → Option Session
  | s, [] => some s
  | s, e :: rest =>
    match registerOne E base s e with
    | none => none
    | some s' => registerAll E base s' rest

/-- The tables the rewritten query reads, in the session with default schema `ds`
(`rewrite_time_travel_query` followed by planning).  `order` is the iteration order of the
`HashSet`. -/
def planRefs (E : Env) (base : Session) (dc ds : Str) (refs : List TRef)
    (order : List (Full × Str)) : Option (List (Option Prov)) :=
  match registerAll E base base order with
  | none => none
  | some s => some ((refs.map rewriteRef).map fun r => s (r.resolve dc ds))

/-! ### Concurrent queries

`SessionContext::new_with_state(self.inner.state())` clones the session state, but the clone keeps
the same catalog list (an `Arc`), so the versioned tables are registered in the catalog every other
query of the context sees (logical.rs 354-359, provider.rs 117-131), and `reload_schema`
(context/mod.rs 89-108), which every statement runs first, replaces that catalog. -/

/-- One step of a statement against the shared catalog. -/
inductive Step where
  | reload
  | register (e : Full × Str)
  deriving DecidableEq, Repr

/-- The shared catalog after one step. -/
def stepShared (E : Env) (base : Session) (s : Session) : Step → Session
  | .reload => base
  | .register e => (registerOne E base s e).getD s

/-- The shared catalog after an interleaving of the statements' steps. -/
def runShared (E : Env) (base : Session) (s : Session) (steps : List Step) : Session :=
  steps.foldl (stepShared E base) s

/-! ### The version search -/

/-- The loop of `load_with_datetime`: `lo` and `hi` (exclusive) bound the candidates, `v` is the
version chosen so far. -/
def search (ts : Nat → Int) (t : Int) (lo hi v : Nat) : Nat :=
  if lo < hi then
    let pivot := (lo + (hi - 1)) / 2
    if ts pivot = t then pivot
    else if ts pivot < t then search ts t (pivot + 1) hi pivot
    else search ts t lo pivot (pivot - 1)
  else v
termination_by hi - lo

/-- `load_with_datetime` on the versions `lo … latest`: before the first commit the first version is
taken. -/
def loadVersion (ts : Nat → Int) (lo latest : Nat) (t : Int) : Nat :=
  max lo (search ts t lo (latest + 1) lo)

end Seafowl.TimeTravel
