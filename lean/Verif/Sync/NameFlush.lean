import Verif.Sync.NameValues
import Verif.Sync.Data

/-!
# Model of a whole flush with the names of the columns

`Sync/Data.lean` models what a flush does with the values, and takes it that every reference finds the
column that is meant.  `Sync/Names.lean` follows whether the references are found.  Here both come
together: rows are lists of cells as in a batch, and every cell is read through the reference in the plan.
-/

namespace Seafowl.Names

open Seafowl.Sync

/-- A row of a batch: the cells in the order of the columns. -/
abbrev PRow := List Cell

/-- The cell a reference stands for (a reference that is not found is an error, see `planNames`). -/
def cellAt (sc : Scope) (row : PRow) (c : ColRef) : Cell :=
  ((resolve sc c).bind (fun i => row[i]?)).getD none

/-- The cells of the columns of a schema read by `col(field)` (union.rs 9-122, planner.rs 296-390). -/
def byName (parse : String → List String) (sc : Scope) (cols : List SyncCol) (row : PRow) : Row := fun d =>
  match findCol cols d.role d.name with
  | none => none
  | some c => cellAt sc row (colOf parse c.field.name)

/-- The cells of the columns of a schema read by `Column::new(Some(rel), field)` (join.rs).  In the code
the columns of the other side and the flags are there as well; they have another relation. -/
def byRel (rel : String) (cols : List SyncCol) (row : PRow) : Row := fun d =>
  match findCol cols d.role d.name with
  | none => none
  | some c => cellAt (scan rel cols) row ⟨[rel], c.field.name⟩

/-- The rows of `union_syncs` (planner.rs 201-223): both projections are read by `col`. -/
def unionRows (parse : String → List String) (L : Low) (lower : List PRow) (U : List SyncCol)
    (upper : List PRow) : Option (Low × List PRow) :=
  match unionNames parse L U with
  | none => none
  | some L' =>
    let m := mergeUnion (descs L.cols) (descs U)
    some (L', lower.map (fun r => m.lower.map (fun e => e (byName parse L.scope L.cols r))) ++
      upper.map (fun r => m.upper.map (fun e => e (byName parse (scan upperRel U) U r))))

/-- The full outer join of the library; the order of the rows is not significant. -/
def outerJoin {A B : Type} (hit : A → B → Bool) (left : List A) (right : List B) :
    List (Option A × Option B) :=
  left.flatMap (fun a =>
    if right.any (hit a) then (right.filter (hit a)).map (fun b => (some a, some b))
    else [(some a, none)]) ++
  (right.filter (fun b => !left.any (fun a => hit a b))).map (fun b => (none, some b))

/-- The equality of one pair of join keys: each is read on its own side, or on the other one if it is not
found on its own (`keyFound`).  NULL is not equal to anything. -/
def keyHit (left right : Scope) (l r : ColRef) (a b : PRow) : Bool :=
  let c := if finds left l then (cellAt left a l, cellAt right b r) else (cellAt left a r, cellAt right b l)
  decide (c.1 = c.2) && c.1.isSome

/-- The flag of a row (`add_sync_flag`, planner.rs 440-447). -/
def withFlag (row : PRow) : PRow := row ++ [litBool true]

/-- The join keys of an OldPk column of the upper side (planner.rs 237-249). -/
def joinKeyHit (parse : String → List String) (L : Low) (U : List SyncCol) (u l : PRow) (c : SyncCol) : Bool :=
  match findCol L.cols .newPk c.name with
  | none => false
  | some k => keyHit (flagged (scan upperRel U) upperRel) (flagged L.scope lowerRel)
      (colOf parse c.field.name) (colOf parse k.field.name) (withFlag u) (withFlag l)

/-- The join condition of `join_syncs` (planner.rs 237-249). -/
def joinHit (parse : String → List String) (L : Low) (U : List SyncCol) (u l : PRow) : Bool :=
  U.all (fun c => c.role != .oldPk || joinKeyHit parse L U u l c)

/-- The rows of `join_syncs` (planner.rs 227-286): the join condition is read by `col`, the projection by
exact references. -/
def joinRows (parse : String → List String) (L : Low) (lower : List PRow) (U : List SyncCol)
    (upper : List PRow) : Option (Low × List PRow) :=
  match joinNames parse L U with
  | none => none
  | some L' =>
    let m := mergeJoin (descs L.cols) (descs U)
    some (L', (outerJoin (joinHit parse L U) upper lower).map (fun p =>
      m.proj.map (fun e => e { upper := p.1.map (byRel upperRel U), lower := p.2.map (byRel lowerRel L.cols) })))

/-- `merge_syncs` (planner.rs 162-197); `column_by_name` (175-176) is an exact reference. -/
def mergeRows (parse : String → List String) (L : Low) (lower : List PRow) (U : List SyncCol)
    (upper : List PRow) : Option (Low × List PRow) :=
  match appendOnly (descs U) (upper.map (byRel upperRel U)) with
  | none => none
  | some true => unionRows parse L lower U upper
  | some false => joinRows parse L lower U upper

/-- The loop of `squash_syncs` (planner.rs 149-156). -/
def squashRows (parse : String → List String) : Low → List PRow → List (List SyncCol × List PRow) →
    Option (Low × List PRow)
  | L, rows, [] => some (L, rows)
  | L, rows, it :: rest =>
    match mergeRows parse L rows it.1 it.2 with
    | none => none
    | some (L', rows') => squashRows parse L' rows' rest

/-- The columns of the table as the plan sees them (planner.rs 455-463). -/
def tableScope (t : List TCol) : Scope := t.map (fun c => ⟨[lowerRel], c.name⟩)

/-- A row of the table read by exact references (planner.rs 490-540). -/
def tableRow (t : List TCol) (row : PRow) : TRow := fun n => cellAt (tableScope t) row ⟨[lowerRel], n⟩

/-- The cell of a column of a normalised change (planner.rs 354-394). -/
def normValue (s : NRow) (c : SyncCol) : Cell :=
  if c.role = .newPk then s.pk c.name else s.val ⟨c.role, c.name⟩

/-- The cells of a normalised change, with the mark of an upsert (planner.rs 354-417). -/
def normRowCells (N : List SyncCol) (s : NRow) : PRow := N.map (normValue s) ++ [litBool s.upsert]

/-- The join condition of `apply_syncs` (planner.rs 465-479): the key columns of the table by their names,
those of the changes by their fields.  A table with a column `__lower_rel` is not planned at all (`applyNames`). -/
def baseHit (parse : String → List String) (t : List TCol) (N : List SyncCol) (b : PRow) (s : NRow) : Bool :=
  N.all (fun c => c.role != .newPk ||
    keyHit (flagged (tableScope t) lowerRel) (scan upperRel N ++ [⟨[upperRel], upsertCol⟩])
      (colOf parse c.name) (colOf parse c.field.name) (withFlag b) (normRowCells N s))

/-- `apply_syncs` (planner.rs 449-548).  The references of the projection to the changes are exact, and the
fields of the changes are named canonically, so `applyCol` reads the column that is meant. -/
def applyRows (parse : String → List String) (t : List TCol) (S : Schema) (N : List SyncCol)
    (base : List PRow) (ns : List NRow) : List PRow :=
  (((outerJoin (baseHit parse t N) base ns).map (fun p => (p.1.map (tableRow t), p.2))).filter keepJoined).map
    (fun p => (flatNames t).map (fun c => applyCol S c p))

/-- A buffered item with its rows as `Sync/Names.lean` takes it.  The bounds of the keys (sync/utils.rs
254-318) are taken from the columns themselves. -/
def itemOf (it : List SyncCol × List PRow) : Item :=
  ⟨it.1, fun r n => it.2.any (fun row => (byRel lowerRel it.1 row ⟨r, n⟩).isSome)⟩

/-- `plan_delta_syncs` (planner.rs 52-115) on the rows of the files that are rewritten: the rows of the new
files, `none` if the flush fails. -/
def flushNamed (parse : String → List String) (t : List TCol) (items : List (List SyncCol × List PRow))
    (base : List PRow) : Option (List PRow) :=
  match items with
  | [] => none
  | it :: rest =>
    if boundsFound parse t (itemOf it) ((it :: rest).map itemOf) then
      match squashRows parse ⟨it.1, scan lowerRel it.1⟩ it.2 rest with
      | none => none
      | some (L, rows) =>
        match normNames parse L with
        | none => none
        | some N =>
          match applyNames parse t N with
          | none => none
          | some _ =>
            match normalize (descs L.cols) (rows.map (byName parse L.scope L.cols)) with
            | none => none
            | some ns => some (applyRows parse t (descs L.cols) N base ns)
    else none

end Seafowl.Names
