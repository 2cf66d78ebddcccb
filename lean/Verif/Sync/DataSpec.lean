import Verif.Sync.Data

/-!
# What row changes mean

Specification vocabulary for C12-C18, independent of the squash/merge/apply algorithms: a table is a
map from keys to rows, a change replaces the row with the old key by a row with the new key.
-/

namespace Seafowl.Sync

/-- A table as a map from primary keys to rows. -/
abbrev Table := Key → Option TRow

/-- A row change: insert (`old = none`), delete (`new = none`) or update.  `set c = some v` means that
column `c` gets the value `v`, `set c = none` that it keeps its value. -/
structure Change where
  old : Option Key
  new : Option Key
  set : String → Option Cell

/-- The row without any value. -/
def nullRow : TRow := fun _ => none

/-- The row a change starts from. -/
def baseOf (T : Table) : Option Key → TRow
  | none => nullRow
  | some k => (T k).getD nullRow

/-- The row with columns `full` after the assignments `set`. -/
def write (full : List String) (b : TRow) (set : String → Option Cell) : TRow :=
  fun c => if c ∈ full then (set c).getD (b c) else none

/-- Effect of one change. -/
def apply1 (full : List String) (T : Table) (ch : Change) : Table := fun k =>
  if ch.new = some k then some (write full (baseOf T ch.old) ch.set)
  else if ch.old = some k then none
  else T k

/-- A change makes sense on a table: the old row exists, and the new key is free (or is the old one). -/
def Valid1 (T : Table) (ch : Change) : Prop :=
  (∀ k, ch.old = some k → (T k).isSome) ∧ (∀ k, ch.new = some k → T k = none ∨ ch.old = some k)

/-- Changes applied one by one in order. -/
def replay (full : List String) (T : Table) (chs : List Change) : Table := chs.foldl (apply1 full) T

/-- A change stream that makes sense: each change does when its turn comes. -/
def ValidSeq (full : List String) : Table → List Change → Prop
  | _, [] => True
  | T, ch :: rest => Valid1 T ch ∧ ValidSeq full (apply1 full T ch) rest

/-- Changes applied all at once: every change refers to the table before all of them. -/
def netApply (full : List String) (T : Table) (N : List Change) : Table := fun k =>
  match N.find? (fun ch => ch.new = some k) with
  | some ch => some (write full (baseOf T ch.old) ch.set)
  | none => if N.any (fun ch => ch.old = some k) then none else T k

/-- A set of changes that makes sense all at once: no two changes share an old or a new key, the old
rows exist, and a new key is free or is given up by one of the changes. -/
structure NetValid (T : Table) (N : List Change) : Prop where
  olds : N.Pairwise (fun a b => a.old ≠ none → a.old ≠ b.old)
  news : N.Pairwise (fun a b => a.new ≠ none → a.new ≠ b.new)
  exist : ∀ ch ∈ N, ∀ k, ch.old = some k → (T k).isSome
  free : ∀ ch ∈ N, ∀ k, ch.new = some k → T k = none ∨ ∃ ch' ∈ N, ch'.old = some k

/-- NULL in every column of a key means that there is no key. -/
def toKey (k : Key) : Option Key := if k.all (·.isNone) then none else some k

/-- The meaning of a row of a change batch with schema `S` for a table with key columns `pks`:
old and new key; the key columns are set to the new key; a Value column is set, unless it has a
Changed column that is not true; other columns keep their value. -/
def changeOf (pks : List String) (S : Schema) (r : Row) : Change :=
  { old := toKey (pks.map (fun n => r ⟨.oldPk, n⟩))
    new := toKey (pks.map (fun n => r ⟨.newPk, n⟩))
    set := fun c =>
      if c ∈ pks then some (r ⟨.newPk, c⟩)
      else if Desc.mk .value c ∈ S then
        if Desc.mk .changed c ∈ S then
          if r ⟨.changed, c⟩ = some (.bool true) then some (r ⟨.value, c⟩) else none
        else some (r ⟨.value, c⟩)
      else none }

/-- A sync schema for a table with key columns `pks`. -/
structure SchemaOk (pks : List String) (S : Schema) : Prop where
  nodup : S.Nodup
  oldPk : names S .oldPk = pks
  newPk : names S .newPk = pks
  changed : ∀ c, Desc.mk .changed c ∈ S → Desc.mk .value c ∈ S
  noPk : ∀ c, Desc.mk .value c ∈ S → c ∉ pks

/-- In every update row of a batch the Changed flags are all set or all clear.  (Trivial for schemas
with at most one Changed column.) -/
def FlagsAgree (pks : List String) (S : Schema) (rows : List Row) : Prop :=
  ∀ r ∈ rows, (changeOf pks S r).old ≠ none → (changeOf pks S r).new ≠ none →
    ∀ c c', Desc.mk .changed c ∈ S → Desc.mk .changed c' ∈ S →
      isTrue (r ⟨.changed, c⟩) = isTrue (r ⟨.changed, c'⟩)

/-- The key of a table row. -/
def tkey (pks : List String) (r : TRow) : Key := pks.map r

/-- A list of rows in which the key columns are a primary key: no NULLs, no two rows with the same
key, no other columns than those of the table. -/
structure Keyed (pks full : List String) (rows : List TRow) : Prop where
  nodup : (rows.map (tkey pks)).Nodup
  nonnull : ∀ r ∈ rows, ∀ n ∈ pks, (r n).isSome
  cols : ∀ r ∈ rows, ∀ c, c ∉ full → r c = none

/-- The table made of the rows. -/
def tableOf (pks : List String) (rows : List TRow) : Table := fun k =>
  rows.find? (fun r => tkey pks r = k)

end Seafowl.Sync
