import Verif.Sync.Schema

/-!
# Model of the column names in the plan of a flush

`plan_delta_syncs` (sync/planner.rs 52-115) builds a query over the buffered changes and the table.  The
model follows the columns the query refers to: each reference must be found in the plan below it, or the
flush fails (while the logical or the physical plan is built, before anything is written).

Columns are referred to in two ways.  `Column::new(Some(relation), name)` is exact.  `col(name)` and the
key names given to `join` go through `Column::from(&str)`, which reads the text as an SQL identifier.
Data types are left out, apart from the number of fields below a field.
-/

namespace Seafowl.Names

open Seafowl.Sync

/-- `datafusion_common::Column`: the parts of the relation, and the name. -/
structure ColRef where
  rel : List String
  name : String
deriving DecidableEq, Repr

/-- `Column::from(&str)` of the library.  `parse` reads a text as identifiers separated by dots, with
those not in quotes folded to lower case; it is empty if the text cannot be read like that, in which case
the text is taken as it is. -/
def colOf (parse : String → List String) (s : String) : ColRef :=
  match parse s with
  | [n] => ⟨[], n⟩
  | [r, n] => ⟨[r], n⟩
  | [q, r, n] => ⟨[q, r], n⟩
  | [p, q, r, n] => ⟨[p, q, r], n⟩
  | _ => ⟨[], s⟩

/-- The columns of a plan (`DFSchema`). -/
abbrev Scope := List ColRef

/-- The lookup of a column of the library: with a relation the very column, without one the only column
of that name. -/
def finds (sc : Scope) (c : ColRef) : Bool :=
  if c.rel = [] then (sc.filter (fun d => decide (d.name = c.name))).length == 1
  else sc.contains c

/-- `LOWER_REL` (planner.rs 33). -/
def lowerRel : String := "__lower_rel"
/-- `UPPER_REL` (planner.rs 34). -/
def upperRel : String := "__upper_rel"
/-- `UPSERT_COL` (planner.rs 35). -/
def upsertCol : String := "__upsert_col"

/-- `canonical_field_name` (sync/schema/mod.rs 243-245): the role in lower case, and the name. -/
def canon (role : Role) (name : String) : String :=
  (match role with
    | .oldPk => "old_pk_"
    | .newPk => "new_pk_"
    | .changed => "changed_"
    | .value => "value_") ++ name

/-- A buffered item: its columns, and which key columns (role and name) have a value that is not NULL. -/
structure Item where
  cols : List SyncCol
  seen : Role → String → Bool

/-- `upper_append_only` (planner.rs 169-183): the first OldPk column is all NULL. -/
def Item.appendOnly (it : Item) : Option Bool :=
  match (names (descs it.cols) .oldPk).head? with
  | none => none  -- expect("At least 1 old PK column must exist")
  | some n => some (!it.seen .oldPk n)

/-- The columns of a scan of a batch under a relation name (planner.rs 138-146, 185-190). -/
def scan (rel : String) (cols : List SyncCol) : Scope := cols.map (fun c => ⟨[rel], c.field.name⟩)

/-- The items squashed so far: columns of the schema, and columns of the plan. -/
structure Low where
  cols : List SyncCol
  scope : Scope

/-- The field of a merged column (merge.rs 178-204): canonical name, type of the column it comes from;
added Changed columns are Boolean. -/
def mergedField (L U : List SyncCol) (d : Desc) : Field :=
  match findCol L d.role d.name with
  | some c => { name := canon d.role d.name, ty := c.field.ty, nested := c.field.nested }
  | none =>
    match findCol U d.role d.name with
    | some c => { name := canon d.role d.name, ty := c.field.ty, nested := c.field.nested }
    | none => { name := canon d.role d.name, ty := .boolean, nested := 0 }

/-- The merged columns. -/
def mergedCols (L U : List SyncCol) (ds : List Desc) : List SyncCol :=
  ds.map (fun d => { role := d.role, name := d.name, field := mergedField L U d })

/-- `SyncSchema::try_new` on a merged or normalised plan (planner.rs 219-222, 282-285, 418-419): the
number of descriptors must be that of the flattened fields.  Its other checks hold for merged schemas if
they hold for the parts. -/
def countOk (cols : List SyncCol) : Bool := decide (cols.length = flatLen (cols.map (·.field)))

/-- The plan of merged items: all columns are named canonically under `LOWER_REL` (merge.rs 180-187). -/
def merged (cols : List SyncCol) : Option Low :=
  if countOk cols then some ⟨cols, scan lowerRel cols⟩ else none

/-- A key column of the other side is there and found (union.rs 9-21; a missing one is a panic). -/
def pkFound (parse : String → List String) (U : List SyncCol) (c : SyncCol) : Bool :=
  match findCol U c.role c.name with
  | none => false
  | some u => finds (scan upperRel U) (colOf parse u.field.name)

/-- `union_syncs` (planner.rs 201-223), with the references of union.rs: `col` on every column of the lower
side, on the keys of the upper side that the lower side has, and on its other columns. -/
def unionNames (parse : String → List String) (L : Low) (U : List SyncCol) : Option Low :=
  if L.cols.all (fun c => finds L.scope (colOf parse c.field.name)) &&
      L.cols.all (fun c => c.role == .value || c.role == .changed || pkFound parse U c) &&
      U.all (fun c => c.role == .oldPk || c.role == .newPk ||
        finds (scan upperRel U) (colOf parse c.field.name)) then
    merged (mergedCols L.cols U (mergeUnion (descs L.cols) (descs U)).desc)
  else none

/-- The keys of a join (`LogicalPlanBuilder::join` of the library): each is looked for on its own side; if
the first is not there, but on the other side, the two are swapped. -/
def keyFound (left right : Scope) (l r : ColRef) : Bool :=
  if finds left l then finds right r else finds right l && finds left r

/-- The scope of one side of the join with its flag (`add_sync_flag`, planner.rs 235, 252-264, 440-447). -/
def flagged (sc : Scope) (flag : String) : Scope := sc ++ [⟨[], flag⟩]

/-- `with_column` of the library, as on the base scan (planner.rs 467): a column of that name is replaced in its place,
without its relation. -/
def withColumn (sc : Scope) (flag : String) : Scope :=
  if sc.any (fun d => decide (d.name = flag)) then sc.map (fun d => if d.name = flag then ⟨[], flag⟩ else d)
  else flagged sc flag

/-- The join keys of an OldPk column of the upper side (planner.rs 237-249; a missing one is a panic). -/
def joinKeyFound (parse : String → List String) (L : Low) (U : List SyncCol) (c : SyncCol) : Bool :=
  match findCol L.cols .newPk c.name with
  | none => false
  | some l => keyFound (flagged (scan upperRel U) upperRel) (flagged L.scope lowerRel)
      (colOf parse c.field.name) (colOf parse l.field.name)

/-- `join_syncs` (planner.rs 227-286): the keys of the join, the two flags, and the exact references of
join.rs to the columns of both sides. -/
def joinNames (parse : String → List String) (L : Low) (U : List SyncCol) : Option Low :=
  let both := flagged (scan upperRel U) upperRel ++ flagged L.scope lowerRel
  if U.all (fun c => c.role != .oldPk || joinKeyFound parse L U c) &&
      finds both ⟨[], upperRel⟩ && finds both ⟨[], lowerRel⟩ &&
      L.cols.all (fun c => finds both ⟨[lowerRel], c.field.name⟩) &&
      U.all (fun c => finds both ⟨[upperRel], c.field.name⟩) then
    merged (mergedCols L.cols U (mergeJoin (descs L.cols) (descs U)).desc)
  else none

/-- `merge_syncs` (planner.rs 162-197). -/
def mergeNames (parse : String → List String) (L : Low) (it : Item) : Option Low :=
  match it.appendOnly with
  | none => none
  | some true => unionNames parse L it.cols
  | some false => joinNames parse L it.cols

/-- The loop of `squash_syncs` (planner.rs 149-156). -/
def squashNames (parse : String → List String) : Low → List Item → Option Low
  | L, [] => some L
  | L, it :: rest =>
    match mergeNames parse L it with
    | none => none
    | some L' => squashNames parse L' rest

/-- The columns of the normalised changes (planner.rs 354-394): the keys once, as NewPk columns, and the
Value and Changed columns. -/
def normCols (cols : List SyncCol) : List SyncCol :=
  cols.filterMap (fun c =>
    match c.role with
    | .oldPk => some ⟨.newPk, c.name, { c.field with name := canon .newPk c.name }⟩
    | .newPk => none
    | r => some ⟨r, c.name, { c.field with name := canon r c.name }⟩)

/-- The references of `normalize_syncs` for one column (planner.rs 296-314, 356-361, 388): `col` on the
field names; the NewPk column of every OldPk column must be there (`unwrap`). -/
def normFound (parse : String → List String) (L : Low) (c : SyncCol) : Bool :=
  match c.role with
  | .newPk => true
  | .oldPk =>
    finds L.scope (colOf parse c.field.name) &&
      (match findCol L.cols .newPk c.name with
        | none => false
        | some n => finds L.scope (colOf parse n.field.name))
  | _ => finds L.scope (colOf parse c.field.name)

/-- `normalize_syncs` (planner.rs 291-421). -/
def normNames (parse : String → List String) (L : Low) : Option (List SyncCol) :=
  if L.cols.any (fun c => c.role == .oldPk) && L.cols.all (normFound parse L) &&
      countOk (normCols L.cols) then some (normCols L.cols)
  else none

/-- A column of the table, with the names of the fields below it in the order of `flattened_fields`. -/
structure TCol where
  name : String
  below : List String
deriving DecidableEq, Repr

/-- `full_schema.flattened_fields()`. -/
def flatNames (t : List TCol) : List String := t.flatMap (fun c => c.name :: c.below)

/-- The reference to a column of the changes in the projection of `apply_syncs` (planner.rs 490-525). -/
def syncFound (both : Scope) (N : List SyncCol) (n : String) : Bool :=
  match (findCol N .value n).or (findCol N .newPk n) with
  | some c => finds both ⟨[], upsertCol⟩ && finds both ⟨[upperRel], c.field.name⟩ &&
      (match findCol N .changed n with
        | some k => finds both ⟨[upperRel], k.field.name⟩
        | none => true)
  | none => finds both ⟨[], lowerRel⟩

/-- `apply_syncs` (planner.rs 449-548): the keys of the join, the filter, and the projection, which has a
column for each flattened field of the table; its columns must have different names.  The result are the
names of the columns of the new files. -/
def applyNames (parse : String → List String) (t : List TCol) (N : List SyncCol) : Option (List String) :=
  let base := withColumn (t.map (fun c => ⟨[lowerRel], c.name⟩)) lowerRel
  let sync := scan upperRel N ++ [⟨[upperRel], upsertCol⟩]
  if N.all (fun c => c.role != .newPk || keyFound base sync (colOf parse c.name) (colOf parse c.field.name)) &&
      finds (base ++ sync) ⟨[], upsertCol⟩ &&
      (flatNames t).all (fun n => finds (base ++ sync) ⟨[lowerRel], n⟩ && syncFound (base ++ sync) N n) &&
      decide (flatNames t).Nodup then some (flatNames t)
  else none

/-- The key columns of a role with values, which `construct_qualifier` puts bounds on (sync/utils.rs
254-318): the columns are those of the first item.  `none`: another item lacks one, a panic. -/
def bounds (first : Item) (items : List Item) (role : Role) : Option (List String) :=
  let ns := names (descs first.cols) role
  if items.all (fun it => ns.all (fun n => (findCol it.cols role n).isSome)) then
    some (ns.filter (fun n => items.any (fun it => it.seen role n)))
  else none

/-- The references of the pruning predicate (planner.rs 562-581): `col` on the names of the key columns
with values.  No such column is a panic. -/
def boundsFound (parse : String → List String) (t : List TCol) (first : Item) (items : List Item) : Bool :=
  match bounds first items .oldPk, bounds first items .newPk with
  | some o, some n => !(o ++ n).isEmpty &&
      (o ++ n).all (fun x => finds (t.map (fun c => ⟨[], c.name⟩)) (colOf parse x))
  | _, _ => false

/-- `plan_delta_syncs` (planner.rs 52-115): the names of the columns of the new files, `none` if the flush
fails. -/
def planNames (parse : String → List String) (t : List TCol) : List Item → Option (List String)
  | [] => none
  | it :: rest =>
    if boundsFound parse t it (it :: rest) then
      match squashNames parse ⟨it.cols, scan lowerRel it.cols⟩ rest with
      | none => none
      | some L =>
        match normNames parse L with
        | none => none
        | some N => applyNames parse t N
    else none

end Seafowl.Names
