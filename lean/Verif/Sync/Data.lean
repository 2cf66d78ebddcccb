import Verif.Sync.Writer

/-!
# Model of the data path of a sync flush

Rows of change batches, squashing (`sync/utils.rs`), merging of items (`sync/schema/*.rs`,
`sync/planner.rs`), normalisation and application to the base table.

Columns are addressed by descriptor (role and name) instead of by position or field name.  This
assumes that no descriptor and no field name occurs twice in one batch.  Data types are left out
here (see `Verif.Sync.Schema` for the checks on them).
-/

namespace Seafowl.Sync

/-- A scalar. -/
inductive Val where
  | int (i : Int)
  | str (s : String)
  | bool (b : Bool)
deriving DecidableEq, Repr

/-- An array slot: a scalar or NULL. -/
abbrev Cell := Option Val

/-- `ColumnRole` (clade/proto/sync.proto). -/
inductive Role where
  | oldPk | newPk | value | changed
deriving DecidableEq, Repr

/-- `ColumnDescriptor`: role and name of a column. -/
structure Desc where
  role : Role
  name : String
deriving DecidableEq, Repr

/-- The columns of a `SyncSchema` (sync/schema/mod.rs 12-16), without the Arrow fields. -/
abbrev Schema := List Desc

/-- A row of a change batch. -/
abbrev Row := Desc → Cell

/-- Values of the key columns. -/
abbrev Key := List Cell

/-- Names of the columns with a role, in schema order. -/
def names (S : Schema) (role : Role) : List String := (S.filter (fun d => d.role = role)).map (·.name)

/-- `SyncSchema::column(..).is_some()` (sync/schema/mod.rs 151-156). -/
def has (S : Schema) (role : Role) (name : String) : Bool := decide (Desc.mk role name ∈ S)

/-- The SQL value TRUE. -/
def isTrue (c : Cell) : Bool := decide (c = some (.bool true))

/-! ### squash_batches (sync/utils.rs 33-249) -/

/-- The old key of a row as converted by the row converter (sync/utils.rs 83, 96): the OldPk columns
in schema order. -/
def oldKey (S : Schema) (r : Row) : Key := (names S .oldPk).map (fun n => r ⟨.oldPk, n⟩)

/-- The new key of a row (sync/utils.rs 84, 97): the NewPk columns in schema order. -/
def newKey (S : Schema) (r : Row) : Key := (names S .newPk).map (fun n => r ⟨.newPk, n⟩)

/-- The all-NULL key (sync/utils.rs 98-99). -/
def nullKey (S : Schema) : Key := (names S .oldPk).map (fun _ => none)

/-- An entry of `column_rows` (sync/utils.rs 117): the rows that supply the old key, the new key and
one row per Changed column.  The code stores row numbers, the model stores the rows. -/
structure Chain where
  first : Row
  last : Row
  chg : List Row

/-- The variables of the loop, sync/utils.rs 116-120. -/
structure SqState where
  chains : List Chain
  temp : List Nat
  pk : List (Key × Nat)

/-- `HashMap::insert`. -/
def alInsert {κ α : Type} [DecidableEq κ] (k : κ) (a : α) (l : List (κ × α)) : List (κ × α) :=
  (k, a) :: alErase k l

/-- Extending a chain by a row, sync/utils.rs 127-137.  A NULL in a Changed column counts as false
(in the code it is whatever bit the value buffer holds). -/
def Chain.extend (S : Schema) (ch : Chain) (r : Row) : Chain :=
  { first := ch.first
    last := r
    chg := List.zipWith (fun rw c => if isTrue (r ⟨.changed, c⟩) then r else rw) ch.chg
      (names S .changed) }

/-- A chain of one row, sync/utils.rs 153-157. -/
def Chain.single (S : Schema) (r : Row) : Chain :=
  { first := r, last := r, chg := (names S .changed).map (fun _ => r) }

/-- One iteration of the loop, sync/utils.rs 122-164. -/
def sqStep (S : Schema) (st : SqState) (r : Row) : SqState :=
  match alGet (oldKey S r) st.pk with
  | some id =>
    match st.chains[id]? with
    | none => st  -- index out of bounds, never happens (see `SqInv`)
    | some ch =>
      let pk := alErase (oldKey S r) st.pk
      { chains := st.chains.set id (ch.extend S r)
        temp :=
          if newKey S r ≠ nullKey S then st.temp
          else if oldKey S ch.first = nullKey S then id :: st.temp
          else st.temp
        pk := if newKey S r ≠ nullKey S then alInsert (newKey S r) id pk else pk }
  | none =>
    { chains := st.chains ++ [Chain.single S r]
      temp := st.temp
      pk := if newKey S r ≠ nullKey S then alInsert (newKey S r) st.chains.length st.pk else st.pk }

/-- The rows to take for a chain, sync/utils.rs 198-246.  Both a Changed column and the Value column
it refers to are taken by `changed_indices[0]`, whichever Changed column it is. -/
def sqOut (S : Schema) (ch : Chain) : Row := fun d =>
  match d.role with
  | .oldPk => ch.first d
  | .newPk => ch.last d
  | .changed => (ch.chg.headD ch.last) d
  | .value => if has S .changed d.name then (ch.chg.headD ch.last) d else ch.last d

/-- The chains that are not temporary, sync/utils.rs 173-187. -/
def liveChains (st : SqState) : List Chain :=
  (st.chains.zipIdx.filter (fun p => !st.temp.contains p.2)).map (·.1)

/-- `squash_batches` on the concatenated batches, sync/utils.rs 33-249.  `none` is the panic of
`changed_indices[0]` (212) when there is a Changed column but no output row.  Errors of `with_fields`
and `concat_batches` (type mismatches) are left out. -/
def squash (S : Schema) (rows : List Row) : Option (List Row) :=
  let st := rows.foldl (sqStep S) { chains := [], temp := [], pk := [] }
  let live := liveChains st
  if live.isEmpty && !(names S .changed).isEmpty then none
  else some (live.map (sqOut S))

/-! ### merging two items (sync/schema/{merge,join,union}.rs, sync/planner.rs 162-286) -/

/-- A row of the full join of the upper and the lower item; `none` on the side that did not match,
where the flag column `UPPER_REL`/`LOWER_REL` is NULL. -/
structure JRow where
  upper : Option Row
  lower : Option Row

/-- A column of the upper side of the join. -/
def colU (d : Desc) (j : JRow) : Cell := match j.upper with | some r => r d | none => none
/-- A column of the lower side of the join. -/
def colL (d : Desc) (j : JRow) : Cell := match j.lower with | some r => r d | none => none

/-- `SyncPosition` (merge.rs 50-54). -/
inductive Pos where
  | lower | upper
deriving DecidableEq

/-- The flag column of one side is NULL. -/
def missing (p : Pos) (j : JRow) : Bool :=
  match p with
  | .lower => j.lower.isNone
  | .upper => j.upper.isNone

/-- The other side. -/
def Pos.other : Pos → Pos
  | .lower => .upper
  | .upper => .lower

/-- A column of a given side. -/
def colAt (p : Pos) (d : Desc) (j : JRow) : Cell :=
  match p with
  | .lower => colL d j
  | .upper => colU d j

/-- `join_old_pk_column` (join.rs 10-37). -/
def joinOldPk (d : Desc) (j : JRow) : Cell :=
  if missing .upper j then colL d j else if missing .lower j then colU d j else colL d j

/-- `join_new_pk_column` (join.rs 39-59). -/
def joinNewPk (d : Desc) (j : JRow) : Cell :=
  if missing .upper j then colL d j else colU d j

/-- A boolean literal. -/
def litBool (b : Bool) : Cell := some (.bool b)

/-- `join_changed_column` (join.rs 61-122). -/
def joinChanged (d : Desc) (other : Schema) (p : Pos) (j : JRow) : Cell :=
  if missing p.other j then colAt p d j
  else if has other .changed d.name then colU d j
  else if has other .value d.name then
    match p with
    | .lower => litBool true
    | .upper => if missing .upper j then litBool true else colU d j
  else
    match p with
    | .lower => litBool false
    | .upper => if missing .upper j then litBool false else colU d j

/-- The projection of `join_value_column` (join.rs 154-205). -/
def joinValue (d : Desc) (other : Schema) (p : Pos) (j : JRow) : Cell :=
  if missing p.other j then colAt p d j
  else if has other .value d.name then
    match p with
    | .lower => colU d j
    | .upper => if missing .upper j then colU d j else colL d j
  else
    match p with
    | .lower => if missing .upper j then none else colL d j
    | .upper => colU d j

/-- `IndexSet::insert`. -/
def setInsert (l : List Desc) (d : Desc) : List Desc := if d ∈ l then l else l ++ [d]

/-- Column descriptors and projections under construction; the two lists are zipped at the end
(merge.rs 178-204). -/
structure JoinAcc where
  desc : List Desc
  proj : List (JRow → Cell)

/-- The part of `join_value_column` that adds a synthetic Changed column (join.rs 137-152). -/
def joinSynth (d : Desc) (this other : Schema) (p : Pos) (a : JoinAcc) : JoinAcc :=
  if !has other .value d.name && !has this .changed d.name then
    { desc := setInsert a.desc ⟨.changed, d.name⟩
      proj := a.proj ++ [fun j => if missing p j then litBool false else litBool true] }
  else a

/-- One column of the lower schema, merge.rs 65-91 and 118. -/
def joinLower (L U : Schema) (a : JoinAcc) (d : Desc) : JoinAcc :=
  let a' := match d.role with
    | .oldPk => { a with proj := a.proj ++ [joinOldPk d] }
    | .newPk => { a with proj := a.proj ++ [joinNewPk d] }
    | .changed => { a with proj := a.proj ++ [joinChanged d U .lower] }
    | .value =>
      let b := joinSynth d L U .lower a
      { b with proj := b.proj ++ [joinValue d U .lower] }
  { a' with desc := setInsert a'.desc d }

/-- One column of the upper schema, merge.rs 122-150 and 175. -/
def joinUpper (L U : Schema) (a : JoinAcc) (d : Desc) : JoinAcc :=
  if d ∈ a.desc then a
  else
    match d.role with
    | .changed =>
      { desc := setInsert a.desc d, proj := a.proj ++ [joinChanged d L .upper] }
    | .value =>
      let b := joinSynth d U L .upper a
      { desc := setInsert b.desc d, proj := b.proj ++ [joinValue d L .upper] }
    | _ => a

/-- `merge_schemas` with a join projection (merge.rs 57-207). -/
def mergeJoin (L U : Schema) : JoinAcc :=
  U.foldl (joinUpper L U) (L.foldl (joinLower L U) { desc := [], proj := [] })

/-- A projection with aliases: the row whose columns are the zipped expressions (merge.rs 182-193). -/
def project {α : Type} (desc : List Desc) (proj : List (α → Cell)) (a : α) : Row := fun d =>
  match (desc.zip proj).find? (fun p => p.1 = d) with
  | some p => p.2 a
  | none => none

/-- The equi-join condition `upper.old = lower.new` on all key columns (planner.rs 237-249): SQL
equality, so NULL never matches. -/
def joinMatch (U : Schema) (u l : Row) : Bool :=
  (names U .oldPk).all (fun n =>
    decide (u ⟨.oldPk, n⟩ = l ⟨.newPk, n⟩) && (u ⟨.oldPk, n⟩).isSome)

/-- The full outer join (planner.rs 266-273); the order of the rows is not significant. -/
def fullJoin (U : Schema) (lower upper : List Row) : List JRow :=
  upper.flatMap (fun u =>
    if lower.any (joinMatch U u) then
      (lower.filter (joinMatch U u)).map (fun l => { upper := some u, lower := some l : JRow })
    else [{ upper := some u, lower := none }]) ++
  (lower.filter (fun l => !upper.any (fun u => joinMatch U u l))).map
    (fun l => { upper := none, lower := some l : JRow })

/-- `join_syncs` (planner.rs 227-286). -/
def joinSyncs (L : Schema) (lower : List Row) (U : Schema) (upper : List Row) : Schema × List Row :=
  let m := mergeJoin L U
  (m.desc, (fullJoin U lower upper).map (project m.desc m.proj))

/-- `union_changed_column` (union.rs 23-62). -/
def unionChanged (d : Desc) (other : Schema) (p : Pos) : (Row → Cell) × (Row → Cell) :=
  if has other .changed d.name then (fun r => r d, fun r => r d)
  else if has other .value d.name then
    match p with
    | .lower => (fun r => r d, fun _ => litBool true)
    | .upper => (fun _ => litBool true, fun r => r d)
  else
    match p with
    | .lower => (fun r => r d, fun _ => litBool false)
    | .upper => (fun _ => litBool false, fun r => r d)

/-- The projections of `union_value_column` (union.rs 92-122). -/
def unionValue (d : Desc) (other : Schema) (p : Pos) : (Row → Cell) × (Row → Cell) :=
  if has other .value d.name then (fun r => r d, fun r => r d)
  else
    match p with
    | .lower => (fun r => r d, fun _ => none)
    | .upper => (fun _ => none, fun r => r d)

/-- Column descriptors and the two projections under construction. -/
structure UnionAcc where
  desc : List Desc
  lower : List (Row → Cell)
  upper : List (Row → Cell)

/-- Push a pair of projections. -/
def UnionAcc.push (a : UnionAcc) (e : (Row → Cell) × (Row → Cell)) : UnionAcc :=
  { a with lower := a.lower ++ [e.1], upper := a.upper ++ [e.2] }

/-- The part of `union_value_column` that adds a synthetic Changed column (union.rs 73-90). -/
def unionSynth (d : Desc) (this other : Schema) (p : Pos) (a : UnionAcc) : UnionAcc :=
  if !has other .value d.name && !has this .changed d.name then
    { a.push (fun _ => litBool (p = .lower), fun _ => litBool (p = .upper)) with
      desc := setInsert a.desc ⟨.changed, d.name⟩ }
  else a

/-- One column of the lower schema, merge.rs 92-118; for key columns `union_pk_column`
(union.rs 9-21). -/
def unionLower (L U : Schema) (a : UnionAcc) (d : Desc) : UnionAcc :=
  let a' := match d.role with
    | .oldPk | .newPk => a.push (fun r => r d, fun r => r d)
    | .changed => a.push (unionChanged d U .lower)
    | .value => (unionSynth d L U .lower a).push (unionValue d U .lower)
  { a' with desc := setInsert a'.desc d }

/-- One column of the upper schema, merge.rs 122-129 and 151-175. -/
def unionUpper (L U : Schema) (a : UnionAcc) (d : Desc) : UnionAcc :=
  if d ∈ a.desc then a
  else
    match d.role with
    | .changed => { a.push (unionChanged d L .upper) with desc := setInsert a.desc d }
    | .value =>
      let b := unionSynth d U L .upper a
      { b.push (unionValue d L .upper) with desc := setInsert b.desc d }
    | _ => a

/-- `merge_schemas` with a union projection (merge.rs 57-207). -/
def mergeUnion (L U : Schema) : UnionAcc :=
  U.foldl (unionUpper L U) (L.foldl (unionLower L U) { desc := [], lower := [], upper := [] })

/-- `union_syncs` (planner.rs 201-223). -/
def unionSyncs (L : Schema) (lower : List Row) (U : Schema) (upper : List Row) : Schema × List Row :=
  let m := mergeUnion L U
  (m.desc, lower.map (project m.desc m.lower) ++ upper.map (project m.desc m.upper))

/-- `upper_append_only` (planner.rs 169-183): the first OldPk column consists of NULLs. -/
def appendOnly (U : Schema) (upper : List Row) : Option Bool :=
  match (names U .oldPk).head? with
  | none => none  -- expect("At least 1 old PK column must exist")
  | some n => some (upper.all (fun r => (r ⟨.oldPk, n⟩).isNone))

/-- `merge_syncs` (planner.rs 162-197). -/
def mergeSyncs (L : Schema) (lower : List Row) (U : Schema) (upper : List Row) :
    Option (Schema × List Row) :=
  match appendOnly U upper with
  | none => none
  | some true => some (unionSyncs L lower U upper)
  | some false => some (joinSyncs L lower U upper)

/-- The loop of `squash_syncs` (planner.rs 149-156). -/
def mergeAll : Schema × List Row → List (Schema × List Row) → Option (Schema × List Row)
  | acc, [] => some acc
  | acc, it :: rest =>
    match mergeSyncs acc.1 acc.2 it.1 it.2 with
    | none => none
    | some acc' => mergeAll acc' rest

/-- `squash_syncs` (planner.rs 130-160) on squashed items (one batch each). -/
def squashSyncs : List (Schema × List Row) → Option (Schema × List Row)
  | [] => none  -- syncs.first().unwrap()
  | it :: rest => mergeAll it rest

/-! ### normalisation (planner.rs 291-421) -/

/-- A row in "upsert" form. -/
structure NRow where
  pk : String → Cell
  val : Row
  upsert : Bool

/-- The four cases of a row, decided on the first key column `n` only (planner.rs 296-330, 366-400). -/
def normRow (n : String) (r : Row) : List NRow :=
  let o := r ⟨.oldPk, n⟩
  let w := r ⟨.newPk, n⟩
  let oldPk : String → Cell := fun c => r ⟨.oldPk, c⟩
  let newPk : String → Cell := fun c => r ⟨.newPk, c⟩
  if o.isNone && w.isSome then [{ pk := newPk, val := r, upsert := true }]
  else if o.isSome && w.isSome && decide (o = w) then [{ pk := newPk, val := r, upsert := true }]
  else if o.isSome && w.isSome && decide (o ≠ w) then
    [{ pk := oldPk, val := r, upsert := false }, { pk := newPk, val := r, upsert := true }]
  else [{ pk := oldPk, val := r, upsert := false }]

/-- `normalize_syncs` (planner.rs 291-421): temporary rows are filtered out, key-changing updates
are split, and the array columns are unnested. -/
def normalize (S : Schema) (rows : List Row) : Option (List NRow) :=
  match (names S .oldPk).head? with
  | none => none  -- expect("At least 1 old PK column must exist")
  | some n =>
    some ((rows.filter (fun r => !((r ⟨.oldPk, n⟩).isNone && (r ⟨.newPk, n⟩).isNone))).flatMap
      (normRow n))

/-! ### application to the base table (planner.rs 449-548) -/

/-- A row of the target table. -/
abbrev TRow := String → Cell

/-- The join condition between a base row and a normalised change. -/
def baseMatch (pks : List String) (b : TRow) (s : NRow) : Bool :=
  pks.all (fun n => decide (b n = s.pk n) && (b n).isSome)

/-- The full outer join of the base rows with the changes (planner.rs 465-479). -/
def baseJoin (pks : List String) (base : List TRow) (ns : List NRow) :
    List (Option TRow × Option NRow) :=
  base.flatMap (fun b =>
    if ns.any (baseMatch pks b) then
      (ns.filter (baseMatch pks b)).map (fun s => (some b, some s))
    else [(some b, none)]) ++
  (ns.filter (fun s => !base.any (fun b => baseMatch pks b s))).map (fun s => (none, some s))

/-- `UPSERT_COL IS NOT FALSE` (planner.rs 480). -/
def keepJoined (p : Option TRow × Option NRow) : Bool :=
  match p.2 with
  | none => true
  | some s => s.upsert

/-- A column of the base side. -/
def baseCol (b : Option TRow) (c : String) : Cell := match b with | some r => r c | none => none

/-- The projection of one table column (planner.rs 488-540). -/
def applyCol (S : Schema) (c : String) (p : Option TRow × Option NRow) : Cell :=
  if has S .value c then
    match p.2 with
    | none => baseCol p.1 c
    | some s =>
      if has S .changed c then
        if isTrue (s.val ⟨.changed, c⟩) then s.val ⟨.value, c⟩ else baseCol p.1 c
      else s.val ⟨.value, c⟩
  else if has S .oldPk c then
    -- a `NewPk` column of the normalised schema
    match p.2 with
    | none => baseCol p.1 c
    | some s => if has S .changed c then
        if isTrue (s.val ⟨.changed, c⟩) then s.pk c else baseCol p.1 c
      else s.pk c
  else
    match p.1 with
    | none => none
    | some b => b c

/-- `apply_syncs` (planner.rs 449-548); `full` are the columns of the table. -/
def applySyncs (S : Schema) (full : List String) (base : List TRow) (ns : List NRow) : List TRow :=
  ((baseJoin (names S .oldPk) base ns).filter keepJoined).map
    (fun p c => if c ∈ full then applyCol S c p else none)

/-- `plan_delta_syncs` (planner.rs 53-117) on squashed items: the rows of the files that are
rewritten become the result.  `none` is a panic of planning. -/
def flushRows (full : List String) (items : List (Schema × List Row)) (base : List TRow) :
    Option (List TRow) :=
  match squashSyncs items with
  | none => none
  | some (S, rows) =>
    match normalize S rows with
    | none => none
    | some ns => some (applySyncs S full base ns)

end Seafowl.Sync
