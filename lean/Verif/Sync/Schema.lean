import Verif.Sync.Prune

/-!
# Model of sync schemas

`SyncSchema::try_new`, `with_fields`, `column` and `is_compatible_with` (sync/schema/mod.rs).
-/

namespace Seafowl.Sync

/-- Arrow data types as far as the code looks at them: `Boolean`, and all others told apart by a code. -/
inductive DType where
  | boolean
  | other (code : Nat)
deriving DecidableEq, Repr

/-- An Arrow field.  `nested` is the number of fields below it (struct members, list items, ...), which
`flattened_fields` lists too. -/
structure Field where
  name : String
  ty : DType
  nested : Nat
deriving DecidableEq, Repr

/-- `clade::sync::ColumnDescriptor` as received: the role is a plain number. -/
structure RawDesc where
  role : Int
  name : String
deriving DecidableEq, Repr

/-- `ColumnRole::try_from` (clade/proto/sync.proto 7-16). -/
def roleOf (n : Int) : Option Role :=
  if n = 0 then some .oldPk
  else if n = 1 then some .newPk
  else if n = 2 then some .changed
  else if n = 3 then some .value
  else none

/-- `ColumnRole::Value as i32`. -/
def valueCode : Int := 3

/-- `SyncColumn` (sync/schema/mod.rs). -/
structure SyncCol where
  role : Role
  name : String
  field : Field
deriving DecidableEq, Repr

/-- The reasons of `SyncError::SchemaError`. -/
inductive SchemaErr where
  | count | badRole | notBoolean | noValue | noPks | pksDiffer | fieldCount | fieldType
deriving DecidableEq, Repr

/-- `schema.flattened_fields().len()`. -/
def flatLen (fs : List Field) : Nat := (fs.map (fun f => f.nested + 1)).sum

/-- The variables of the validation loop: the two hash sets. -/
structure PkSets where
  old : List (String × DType)
  new : List (String × DType)

/-- The validation loop over descriptors zipped with the top-level fields (sync/schema/mod.rs 33-76). -/
def checkCols (all : List RawDesc) : List (RawDesc × Field) → PkSets → Except SchemaErr PkSets
  | [], a => .ok a
  | (d, f) :: rest, a =>
    match roleOf d.role with
    | some .oldPk => checkCols all rest { a with old := (d.name, f.ty) :: a.old }
    | some .newPk => checkCols all rest { a with new := (d.name, f.ty) :: a.new }
    | some .value => checkCols all rest a
    | some .changed =>
      if f.ty ≠ .boolean then .error .notBoolean
      else if !all.any (fun o => decide (d.name = o.name) && decide (o.role = valueCode)) then .error .noValue
      else checkCols all rest a
    | none => .error .badRole

/-- `HashSet` equality. -/
def sameSet (a b : List (String × DType)) : Bool := a.all b.contains && b.all a.contains

/-- The columns built at the end (sync/schema/mod.rs 96-113).  The role getter of prost maps unknown
numbers to the default `OldPk`; they have been refused before. -/
def mkCols (ds : List RawDesc) (fs : List Field) : List SyncCol :=
  (ds.zip fs).map (fun p => { role := (roleOf p.1.role).getD .oldPk, name := p.1.name, field := p.2 })

/-- `SyncSchema::try_new` (sync/schema/mod.rs 19-116). -/
def tryNew (ds : List RawDesc) (fs : List Field) (validatePks : Bool) : Except SchemaErr (List SyncCol) :=
  if ds.length ≠ flatLen fs then .error .count
  else
    match checkCols ds (ds.zip fs) { old := [], new := [] } with
    | .error e => .error e
    | .ok a =>
      if validatePks && (a.old.isEmpty || a.new.isEmpty) then .error .noPks
      else if validatePks && !sameSet a.old a.new then .error .pksDiffer
      else .ok (mkCols ds fs)

/-- `with_fields` (sync/schema/mod.rs 126-149). -/
def withFields (cols : List SyncCol) (fs : List Field) : Except SchemaErr (List SyncCol) :=
  if fs.length ≠ cols.length then .error .fieldCount
  else if (cols.zip fs).all (fun p => decide (p.1.field.ty = p.2.ty)) then
    .ok ((cols.zip fs).map (fun p => { p.1 with field := p.2 }))
  else .error .fieldType

/-- `column` (sync/schema/mod.rs 151-156): the index map holds the last column with a role and name. -/
def findCol (cols : List SyncCol) (role : Role) (name : String) : Option SyncCol :=
  cols.reverse.find? (fun c => decide (c.role = role) && decide (c.name = name))

/-- `is_compatible_with` (sync/schema/mod.rs 183-192). -/
def compatible (a b : List SyncCol) : Bool :=
  (a.zip b).all (fun p => decide (p.1.name = p.2.name) && decide (p.1.role = p.2.role) &&
    decide (p.1.field.ty = p.2.field.ty))

/-- The untyped schema of the data path model. -/
def descs (cols : List SyncCol) : Schema := cols.map (fun c => ⟨c.role, c.name⟩)

end Seafowl.Sync
