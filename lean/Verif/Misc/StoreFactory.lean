/-
The factory of object stores for tables with their own location.

Modelled: /repo/src/object_store/factory.rs 43-58 (`StoreCacheKey`, its `Hash`), 60-65 (the factory),
102-155 (`get_log_store_for_table`).

A location is an opaque URL with a scheme; what a store built from a location and options is, is the
library's (and `Verif.Misc.StoreOpts`); here a store is named by a number, every build making a new
one.  The options are the entries of a hash map in iteration order.
-/
namespace Seafowl.StoreFactory

/-- Option names and values: any type with a total order (Rust's order of strings). -/
structure Ord (α : Type) where
  le : α → α → Bool
  total : ∀ a b, le a b = true ∨ le b a = true
  trans : ∀ a b c, le a b = true → le b c = true → le a c = true
  antisymm : ∀ a b, le a b = true → le b a = true → a = b

/-- `StoreCacheKey` (43-47). -/
structure Key (α : Type) where
  url : α
  options : List (α × α)
  deriving DecidableEq

variable {α : Type} [DecidableEq α]

/-- `HashMap::eq`: as many entries, and each found in the other. -/
def mapEq (a b : List (α × α)) : Bool :=
  a.length == b.length && a.all (fun e => b.any (fun f => decide (f = e)))

/-- The derived equality of `StoreCacheKey`. -/
def Key.eq (a b : Key α) : Bool := decide (a.url = b.url) && mapEq a.options b.options

/-- `pairs.sort_by_key(|i| i.0)`: a stable sort by name; here insertion sort. -/
def insertPair (o : Ord α) (e : α × α) : List (α × α) → List (α × α)
  | [] => [e]
  | f :: fs => if o.le e.1 f.1 then e :: f :: fs else f :: insertPair o e fs

def sortPairs (o : Ord α) : List (α × α) → List (α × α)
  | [] => []
  | e :: es => insertPair o e (sortPairs o es)

/-- What is fed to the hasher (49-58). -/
def Key.hashed (o : Ord α) (k : Key α) : α × List (α × α) := (k.url, sortPairs o k.options)

/-- A lookup in a hash table: an entry is found if its hash agrees and it is equal.  `hash` is the
hasher. -/
def lookup (o : Ord α) (hash : α × List (α × α) → Nat) (k : Key α) :
    List (Key α × Nat) → Option Nat
  | [] => none
  | (k', v) :: rest =>
    if hash (k'.hashed o) = hash (k.hashed o) ∧ k'.eq k = true then some v else lookup o hash k rest

/-- The factory: the stores by location, and (to talk about it) what each store was built from. -/
structure Factory (α : Type) where
  stores : List (Key α × Nat)
  built : List (Key α)
  deriving DecidableEq

/-- Where a table's files are: the store, and the path of the table in it. -/
structure LogStore (α : Type) where
  store : Nat
  path : α
  deriving DecidableEq, Repr

/-- `get_log_store_for_table` (102-155), up to the URL of the table.  `ok`: does building the store
succeed, if it comes to that? -/
def Factory.get (o : Ord α) (hash : α × List (α × α) → Nat) (f : Factory α) (k : Key α) (path : α)
    (ok : Bool) : Factory α × Option (LogStore α) :=
  match lookup o hash k f.stores with
  | some s => (f, some ⟨s, path⟩)
  | none =>
    if ok then
      (⟨(k, f.built.length) :: f.stores, f.built ++ [k]⟩, some ⟨f.built.length, path⟩)
    else (f, none)

/-- A sequence of requests; the answers. -/
def Factory.run (o : Ord α) (hash : α × List (α × α) → Nat) (f : Factory α) :
    List (Key α × α × Bool) → Factory α × List (Option (LogStore α))
  | [] => (f, [])
  | (k, p, ok) :: rs =>
    let r := f.get o hash k p ok
    let r' := r.1.run o hash rs
    (r'.1, r.2 :: r'.2)

/-- Is the store wrapped in a cache (124-132)?  `scheme` is the URL's, `cacheConfigured` whether the
configuration asks for a cache. -/
def cached (scheme : String) (cacheConfigured : Bool) : Bool :=
  !(scheme == "file" || scheme == "memory") && cacheConfigured

/-- Two requests at once: building a store waits for the network, so a request looks up, builds and
inserts in three steps. -/
inductive Pc (α : Type) where
  | look (k : Key α) | build (k : Key α) | insert (k : Key α) (s : Nat) | done (s : Nat)
  deriving DecidableEq

structure Conc (α : Type) where
  f : Factory α
  calls : List (Pc α)
  deriving DecidableEq

def Conc.step (o : Ord α) (hash : α × List (α × α) → Nat) (c : Conc α) (i : Nat) : Conc α :=
  match c.calls[i]? with
  | some (.look k) =>
    match lookup o hash k c.f.stores with
    | some s => { c with calls := c.calls.set i (.done s) }
    | none => { c with calls := c.calls.set i (.build k) }
  | some (.build k) =>
    ⟨⟨c.f.stores, c.f.built ++ [k]⟩, c.calls.set i (.insert k c.f.built.length)⟩
  | some (.insert k s) => ⟨⟨(k, s) :: c.f.stores, c.f.built⟩, c.calls.set i (.done s)⟩
  | _ => c

def Conc.run (o : Ord α) (hash : α × List (α × α) → Nat) (c : Conc α) : List Nat → Conc α
  | [] => c
  | i :: is => (c.step o hash i).run o hash is

/-! ### The URL of a table -/

/-- `url.path_segments_mut().pop_if_empty().extend(table_path.split("/"))` (144-152): the segments of
the location without a last empty one, then those of the path, of which the library leaves out `.`
and `..`. -/
def tableUrl (location path : List String) : List String :=
  (if location.getLast? = some "" then location.dropLast else location) ++
    path.filter (fun s => s != "." && s != "..")

end Seafowl.StoreFactory
