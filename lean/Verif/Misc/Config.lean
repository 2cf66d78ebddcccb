/-
Validation of the configuration.

Modelled: /repo/src/config/schema.rs 356-407 (`validate_config`), and the parts of `SeafowlConfig`
it looks at (43-56, 102-140, /repo/object_store_factory/src/lib.rs 24-33, aws.rs 19-32, google.rs
10-15).  Warnings are not modelled.
-/
namespace Seafowl.Config

/-- `str::contains`. -/
def contains (pat : List Char) : List Char → Bool
  | [] => pat.isEmpty
  | c :: cs => pat.isPrefixOf (c :: cs) || contains pat cs

/-- `Catalog` (schema.rs 102-109).  For SQLite only the DSN matters. -/
inductive Catalog where
  | postgres (dsn : List Char)
  | sqlite (dsn : List Char)
  | clade (dsn : List Char)
  deriving DecidableEq, Repr

/-- `ObjectStoreConfig` (lib.rs 24-33), with the fields that are looked at. -/
inductive Store where
  | localFs (dataDir : List Char)
  | memory
  | s3 (bucket : List Char) (region endpoint : Option (List Char))
  | gcs (bucket : List Char) (credentials : Option (List Char))
  deriving DecidableEq, Repr

/-- `SeafowlConfig` (43-56), with the fields that are looked at. -/
structure Cfg where
  objectStore : Option Store
  catalog : Option Catalog
  maxMemory : Option Nat
  deriving DecidableEq, Repr

inductive CfgErr where
  | mixed | s3Region | memoryTooLow
  deriving DecidableEq, Repr

/-- `:memory:`. -/
def memoryName : List Char := [':', 'm', 'e', 'm', 'o', 'r', 'y', ':']

/-- `MIN_MEMORY` (31). -/
def minMemory : Nat := 64

/-- `validate_config` (356-407). -/
def validateConfig (c : Cfg) : Except CfgErr Cfg :=
  let inMemoryCatalog : Bool := match c.catalog with
    | some (.sqlite dsn) => contains memoryName dsn
    | _ => false
  let inMemoryStore : Bool := match c.objectStore with
    | some .memory => true
    | _ => false
  if xor inMemoryCatalog inMemoryStore then .error .mixed
  else
    match c.objectStore with
    | some (.s3 _ none none) => .error .s3Region
    | _ =>
      match c.maxMemory with
      | some m => if m < minMemory then .error .memoryTooLow else .ok c
      | none => .ok c

end Seafowl.Config
