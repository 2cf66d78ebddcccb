/-!
# Types that Delta tables do not have

Modelled: /repo/src/context/physical.rs 856-887 (`coerce_plan`), 165-195 (`CREATE TABLE … AS`: the plan is coerced, the table gets
the schema of the coerced plan and then its rows), 906-1005 (`file_to_table`: the plan of a file is not coerced).

Library behaviour, written out: the cast of timestamps in Arrow divides and drops the fraction; which types of columns a Delta
table can have (`StructType::try_from`), as far as timestamps are concerned.
-/
namespace Seafowl.Coerce

/-- `TimeUnit`. -/
inductive Unit' where
  | s | ms | us | ns
  deriving DecidableEq, Repr

/-- `DataType`: timestamps, lists, structs, and everything else. -/
inductive T where
  | ts (u : Unit') (tz : Option String)
  | list (t : T)
  | struct (fs : List (String × T))
  | other (n : Nat)

/-- A value: a timestamp is the number of units since 1970. -/
inductive Val where
  | null
  | ts (x : Int)
  | list (vs : List Val)
  | struct (vs : List Val)
  | other (n : Nat)

/-- A field of a schema. -/
structure Field where
  name : String
  ty : T
  nullable : Bool

/-- A physical plan: its schema, and the rows it yields. -/
structure Plan where
  schema : List Field
  rows : List (List Val)

/-- Does the column have to be converted (physical.rs 869-871)? -/
def incompatible : T → Bool
  | .ts .ns _ => true
  | _ => false

/-- The column of the projection (physical.rs 869-878): a cast keeps name and nullability. -/
def coerceField (f : Field) : Field :=
  match f.ty with
  | .ts .ns tz => { f with ty := .ts .us tz }
  | _ => f

/-- The value of the projection: Arrow's cast from nanoseconds to microseconds. -/
def coerceVal (t : T) (v : Val) : Val :=
  match t, v with
  | .ts .ns _, .ts x => .ts (x.tdiv 1000)
  | _, v => v

/-- `coerce_plan` (856-887): without such a column the plan stays as it is. -/
def coercePlan (p : Plan) : Plan :=
  if p.schema.any (fun f => incompatible f.ty) then
    { schema := p.schema.map coerceField,
      rows := p.rows.map (fun r => List.zipWith (fun f v => coerceVal f.ty v) p.schema r) }
  else p

/-- What the library decides: the types other than timestamps, lists and structs, and the time zones. -/
structure Lib where
  ok : Nat → Bool
  zone : String → Bool

mutual
/-- Can a column of a Delta table have this type (library behaviour)? -/
def storable (L : Lib) : T → Bool
  | .ts .us none => true
  | .ts .us (some tz) => L.zone tz
  | .ts _ _ => false
  | .list t => storable L t
  | .struct fs => storableAll L fs
  | .other n => L.ok n
/-- All fields of a struct. -/
def storableAll (L : Lib) : List (String × T) → Bool
  | [] => true
  | f :: fs => storable L f.2 && storableAll L fs
end

/-- A stored table. -/
structure Table where
  schema : List Field
  rows : List (List Val)

/-- A table is created with the schema of a plan and filled with its rows; `none`: the schema is refused. -/
def store (L : Lib) (p : Plan) : Option Table :=
  if p.schema.all (fun f => storable L f.ty) then some ⟨p.schema, p.rows⟩ else none

/-- `CREATE TABLE … AS` (165-195). -/
def createTableAs (L : Lib) (p : Plan) : Option Table := store L (coercePlan p)

/-- The upload of a file into a new table (906-1005): `p` is the scan of the file. -/
def uploadNew (L : Lib) (p : Plan) : Option Table := store L p

end Seafowl.Coerce
