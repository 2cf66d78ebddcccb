/-!
# Model of the wrapped object store

`InternalObjectStore` (/repo/src/object_store/wrapped.rs 128-290): which operation of the backing store
each operation of the wrapper becomes.  The operations of the backing stores are assumed to be atomic.
-/

namespace Seafowl.Store.Wrapped

/-- `ObjectStoreConfig` (object_store_factory/src/lib.rs); only the options that matter here. -/
inductive Config where
  | loc (disableHardlinks : Bool)
  | memory
  | s3
  | gcs
deriving DecidableEq, Repr

/-- Paths are numbers. -/
abbrev Path := Nat

variable {γ : Type}

/-- Contents of a store. -/
abbrev Objects (γ : Type) := Path → Option γ

/-- Assignment. -/
def set (s : Objects γ) (p : Path) (v : Option γ) : Objects γ := fun q => if q = p then v else s q

/-- Operations of an object store; the same for the wrapper and the backing store.  `putCreate` is
`put_opts` with mode `Create`. -/
inductive Op (γ : Type) where
  | put (p : Path) (c : γ)
  | putCreate (p : Path) (c : γ)
  | copy (src dst : Path)
  | copyIfNotExists (src dst : Path)
  | rename (src dst : Path)
  | renameIfNotExists (src dst : Path)
  | delete (p : Path)

/-- The backing store (library behaviour): new contents and whether the operation succeeded. -/
def inner (s : Objects γ) : Op γ → Objects γ × Bool
  | .put p c => (set s p (some c), true)
  | .putCreate p c => if (s p).isSome then (s, false) else (set s p (some c), true)
  | .copy a b =>
    match s a with
    | none => (s, false)
    | some c => (set s b (some c), true)
  | .copyIfNotExists a b =>
    match s a with
    | none => (s, false)
    | some c => if (s b).isSome then (s, false) else (set s b (some c), true)
  | .rename a b =>
    match s a with
    | none => (s, false)
    | some c => (set (set s a none) b (some c), true)
  | .renameIfNotExists a b =>
    match s a with
    | none => (s, false)
    | some c => if (s b).isSome then (s, false) else (set (set s a none) b (some c), true)
  | .delete p => (set s p none, (s p).isSome)

/-- The wrapper (wrapped.rs 146-172, 250-290). -/
def wrap (cfg : Config) : Op γ → Op γ
  | .putCreate p c =>
    match cfg with
    | .loc true => .put p c
    | _ => .putCreate p c
  | .copyIfNotExists a b =>
    match cfg with
    | .loc true => .copy a b
    | _ => .copyIfNotExists a b
  | .renameIfNotExists a b =>
    match cfg with
    | .s3 => .rename a b
    | .loc true => .rename a b
    | _ => .renameIfNotExists a b
  | op => op

/-- One operation of the wrapper. -/
def step (cfg : Config) (s : Objects γ) (op : Op γ) : Objects γ × Bool := inner s (wrap cfg op)

/-- A history of operations of all writers. -/
def run (cfg : Config) (s : Objects γ) (ops : List (Op γ)) : Objects γ :=
  ops.foldl (fun s op => (step cfg s op).1) s

end Seafowl.Store.Wrapped
