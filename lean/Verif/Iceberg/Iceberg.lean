/-!
# INSERT into Iceberg tables (context/iceberg.rs 54-420)

A table is a directory with immutable metadata files `v{n}.metadata.json`, of which `version-hint.text` names the
current one.  An INSERT reads the hint and the metadata, writes its data, manifest and manifest list under new
names (UUIDs), writes the next metadata file unless it exists, and then the hint.

Several INSERTs may run at the same time, from any number of processes.  Between two of the accesses to the shared
files anything may happen to the others; an access may fail, a process may stop, and an answer may get lost after the
access took effect.

Simplified: data files, manifests and manifest lists are part of the snapshot that refers to them (nothing else ever
refers to them before the metadata file is written, and they are never changed); deletion files are equality deletes;
version numbers do not overflow; the checks of the `iceberg` crate in `add_snapshot` besides that on the
snapshot's id are failures that may happen at any time.
-/

namespace Seafowl.Iceberg

structure Val where
  ty : String
  v : Int
  deriving DecidableEq, Repr

abbrev Row := List (Option Val)

/-- A field of an Iceberg schema; types of `iceberg::spec::Type` by name. -/
structure Field where
  name : String
  required : Bool
  ty : String
  deriving DecidableEq, Repr

/-- A field of an arrow schema. -/
structure AField where
  name : String
  nullable : Bool
  ty : String
  deriving DecidableEq, Repr

inductive Kind where
  | data
  | deletes
  deriving DecidableEq, Repr

/-- A manifest with the rows of its files. -/
structure Manifest where
  kind : Kind
  seq : Nat
  rows : List Row
  deriving DecidableEq, Repr

structure Snap where
  id : Int
  schemaId : Nat
  seq : Nat
  manifests : List Manifest
  deriving DecidableEq, Repr

/-- A metadata file: its name is `v{n}.metadata.json` or any other (those of other catalogs). -/
inductive Path where
  | ver (n : Nat)
  | other (s : String)
  deriving DecidableEq, Repr

/-- The parts of `TableMetadata` that matter here; `main` is the branch of that name and with it the current snapshot. -/
structure Meta where
  schemas : List (Nat × List Field)
  schemaId : Nat
  lastSeq : Nat
  snaps : List Snap
  main : Option Int
  previous : List Path
  deriving DecidableEq, Repr

/-- `TableMetadata::current_schema`. -/
def Meta.schema (m : Meta) : List Field := (m.schemas.lookup m.schemaId).getD []

/-- `TableMetadata::current_snapshot`. -/
def Meta.current (m : Meta) : Option Snap :=
  match m.main with
  | none => none
  | some id => m.snaps.find? (·.id == id)

/-! ## Reading (library behaviour, iceberg spec "Scan planning") -/

/-- A delete file applies to data files with a smaller sequence number. -/
def deleted (ms : List Manifest) (seq : Nat) (r : Row) : Bool :=
  ms.any (fun d => d.kind == .deletes && decide (seq < d.seq) && d.rows.contains r)

def liveIn (ms : List Manifest) (m : Manifest) : List Row :=
  match m.kind with
  | .data => m.rows.filter (fun r => !deleted ms m.seq r)
  | .deletes => []

/-- The rows of a table in a snapshot. -/
def snapRows (s : Snap) : List Row := s.manifests.flatMap (liveIn s.manifests)

/-- The rows of a table. -/
def rowsOf (m : Meta) : List Row :=
  match m.current with
  | none => []
  | some s => snapRows s

/-- The columns of a table: those of the schema of the current snapshot (`Snapshot::schema`); `none`: the schema is not
in the metadata, the table cannot be read. -/
def columns (m : Meta) : Option (List Field) :=
  match m.current with
  | none => some m.schema
  | some s => m.schemas.lookup s.schemaId

/-! ## Schemas -/

/-- `arrow_schema_to_schema` of the schema with field ids (70-89); `conv`: the type conversion of the library, which
fails for some types. -/
def toIceberg (conv : String → Option String) (fs : List AField) : Option (List Field) :=
  fs.mapM (fun f => (conv f.ty).map (fun t => { name := f.name, required := !f.nullable, ty := t }))

/-- The loop of `is_schema_aligned` (108-117). -/
def fieldsAligned : List Field → List Field → Bool
  | o :: os, n :: ns =>
    if o.required && !n.required then false
    else if o.ty != n.ty then false
    else fieldsAligned os ns
  | _, _ => true

/-- `is_schema_aligned` (91-119). -/
def isSchemaAligned (conv : String → Option String) (new : List AField) (old : List Field) : Bool :=
  match toIceberg conv new with
  | none => false
  | some n => if old.length != n.length then false else fieldsAligned old n

/-- `create_empty_metadata` (55-68). -/
def emptyMeta (fs : List Field) : Meta :=
  { schemas := [(0, fs)], schemaId := 0, lastSeq := 0, snaps := [], main := none, previous := [] }

/-! ## Writing -/

/-- `DEFAULT_SCHEMA_ID` (154). -/
def defaultSchemaId : Nat := 0

/-- The manifests of the new snapshot (304-312): those of the current one and the new one, which gets the sequence
number of the snapshot. -/
def newManifests (m : Meta) (rows : List Row) : List Manifest :=
  let new : Manifest := { kind := .data, seq := m.lastSeq + 1, rows := rows }
  match m.current with
  | some s => s.manifests ++ [new]
  | none => [new]

/-- 266-267, 326-341. -/
def newSnap (m : Meta) (sid : Int) (rows : List Row) : Snap :=
  { id := sid, schemaId := defaultSchemaId, seq := m.lastSeq + 1, manifests := newManifests m rows }

/-- `update_metadata_snapshot` (122-140): `add_snapshot` refuses an id that exists. -/
def updateMeta (m : Meta) (prev : Option Path) (s : Snap) : Option Meta :=
  if m.snaps.any (·.id == s.id) then none
  else some { m with snaps := m.snaps ++ [s], lastSeq := s.seq, main := some s.id, previous := m.previous ++ prev.toList }

/-- An INSERT: the schema and the record batches of its plan (`none`: an error while executing it), and the id drawn for
its snapshot. -/
structure Request where
  schema : List AField
  batches : List (Option (List Row))
  sid : Int
  deriving DecidableEq, Repr

inductive Err where
  | io
  | invalid
  | badInput
  | concurrency
  deriving DecidableEq, Repr

inductive Pc where
  | start
  | hinted (h : Option Nat)
  | based (h : Option Nat) (m : Meta)
  | written (h : Option Nat) (m : Meta) (rows : List Row)
  | committed (v : Nat)
  | done
  | failed (e : Err)
  deriving DecidableEq, Repr

/-- A running INSERT; `wrote`: the version it wrote (not known to the code, for the statements below only). -/
structure Th where
  req : Request
  pc : Pc
  wrote : Option Nat
  deriving DecidableEq, Repr

/-- The files of a table: metadata (`some none`: not readable as such), and the hint (`some none`: not a number). -/
structure Sys where
  files : Path → Option (Option Meta)
  hint : Option (Option Nat)
  threads : List Th

/-- 348-351. -/
def next : Option Nat → Nat
  | some h => h + 1
  | none => 0

def setFile (fs : Path → Option (Option Meta)) (p : Path) (m : Meta) : Path → Option (Option Meta) :=
  fun q => if q = p then some (some m) else fs q

/-- Lines 168-189. -/
def readHint (hint : Option (Option Nat)) : Pc :=
  match hint with
  | none => .hinted none
  | some none => .failed .invalid
  | some (some h) => .hinted (some h)

/-- Lines 190-232. -/
def readMeta (conv : String → Option String) (files : Path → Option (Option Meta)) (r : Request) (h : Option Nat) : Pc :=
  match h with
  | some v =>
    match files (.ver v) with
    | none => .failed .io
    | some none => .failed .invalid
    | some (some m) => if isSchemaAligned conv r.schema m.schema then .based (some v) m else .failed .badInput
  | none =>
    match toIceberg conv r.schema with
    | none => .failed .invalid
    | some fs => .based none (emptyMeta fs)

/-- Lines 247-264: all batches are written to a new file. -/
def writeData (r : Request) (h : Option Nat) (m : Meta) : Pc :=
  match r.batches.mapM id with
  | none => .failed .badInput
  | some bs => .written h m bs.flatten

/-- The metadata an INSERT wants to write (343-347). -/
def wanted (r : Request) (h : Option Nat) (m : Meta) (rows : List Row) : Option Meta :=
  updateMeta m (h.map .ver) (newSnap m r.sid rows)

def Sys.setTh (S : Sys) (i : Nat) (t : Th) : Sys := { S with threads := S.threads.set i t }

/-- One access to the files by an INSERT. -/
def Sys.stepTh (conv : String → Option String) (S : Sys) (i : Nat) (t : Th) : Sys :=
  match t.pc with
  | .start => S.setTh i { t with pc := readHint S.hint }
  | .hinted h => S.setTh i { t with pc := readMeta conv S.files t.req h }
  | .based h m => S.setTh i { t with pc := writeData t.req h m }
  | .written h m rows =>  -- 343-375
    match wanted t.req h m rows with
    | none => S.setTh i { t with pc := .failed .invalid }
    | some m' =>
      match S.files (.ver (next h)) with
      | some _ => S.setTh i { t with pc := .failed .concurrency }
      | none =>
        { S with files := setFile S.files (.ver (next h)) m' }.setTh i { t with pc := .committed (next h), wrote := some (next h) }
  | .committed v => { S with hint := some (some v) }.setTh i { t with pc := .done }  -- 377-381
  | .done | .failed _ => S

def Sys.step (conv : String → Option String) (S : Sys) (i : Nat) : Sys :=
  match S.threads[i]? with
  | none => S
  | some t => S.stepTh conv i t

/-- An INSERT ends with an I/O error. -/
def Sys.ended (S : Sys) (i : Nat) : Sys :=
  match S.threads[i]? with
  | none => S
  | some t => S.setTh i { t with pc := .failed .io }

def Pc.running : Pc → Bool
  | .done | .failed _ => false
  | _ => true

def Sys.running (S : Sys) (i : Nat) : Bool :=
  match S.threads[i]? with
  | none => false
  | some t => t.pc.running

/-- An INSERT that is still running ends with an error (or its process ends). -/
def Sys.fail (S : Sys) (i : Nat) : Sys := if S.running i then S.ended i else S

/-- An access of an INSERT that takes effect although the INSERT ends with an error. -/
def Sys.lose (conv : String → Option String) (S : Sys) (i : Nat) : Sys :=
  if S.running i then (S.step conv i).ended i else S

inductive Ev where
  | admit (r : Request)
  | step (i : Nat)
  | fail (i : Nat)
  /-- the access takes effect but is reported as failed -/
  | lost (i : Nat)
  deriving DecidableEq, Repr

def Sys.apply (conv : String → Option String) (S : Sys) : Ev → Sys
  | .admit r => { S with threads := S.threads ++ [⟨r, .start, none⟩] }
  | .step i => S.step conv i
  | .fail i => S.fail i
  | .lost i => S.lose conv i

def Sys.run (conv : String → Option String) (S : Sys) (es : List Ev) : Sys := es.foldl (Sys.apply conv) S

/-- The rows a SELECT sees: a table name of a catalog stands for one metadata file (metastore.rs 230-245,
`StaticTable::from_metadata_file`); `none`: error. -/
def Sys.select (S : Sys) (p : Path) : Option (List Row) :=
  match S.files p with
  | some (some m) => some (rowsOf m)
  | _ => none

end Seafowl.Iceberg
