import Verif.Context.UploadProps

/-!
# C57: exactly when an upload to an existing schema works

`file_to_table` (/repo/src/context/physical.rs 906-1005) looks for the table under its bare name, that is in the
default schema of the session, but creates and writes it in the schema of the request.
-/

namespace Seafowl.Ddl

open Seafowl.Catalog

set_option linter.unusedSimpArgs false

/-- The start of an upload to an existing schema: functions are reloaded, nothing else happens. -/
theorem upload_start (env : Env) (c : Ctx) (sch : String) (hs : Sound env c) (hp : Plain sch)
    (hsch : ∃ x, IsSchema c.cat c.db sch x) :
    ∃ us, reload env c = ({ c with udfs := us }, .ok ()) ∧ ∃ ts, schemaTables { c with udfs := us } sch = some ts := by
  obtain ⟨d0, hd0⟩ := hs.db
  have hrl := reload_ok env c d0 hd0 hs.fns
  obtain ⟨us, hr⟩ := reload_frame env c
  refine ⟨us, Prod.ext hr hrl, ?_⟩
  simp only [schemaTables, hp.2.1, hp.2.2, if_false]
  rcases getSchema_cases c.cat c.db sch hp.2.1 with ⟨x, _, hg⟩ | ⟨hn, _⟩
  · simp [hg]
  · exact absurd hsch.choose_spec (hn _)

/-- The bare name of the upload, as the session reads it, names something. -/
def Seen (env : Env) (c : Ctx) (tab : String) : Prop := ∃ p, lookup c (resolve c (env.parse tab)) = .ok p

/-- In an ordinary default schema that is a table, one whose files can be loaded. -/
theorem seen_default (env : Env) (c : Ctx) (hw : WF c.cat) (tab : String) (hp : Plain c.sch)
    (hname : env.parse tab = { tab := tab }) :
    Seen env c tab ↔ ∃ t, IsTable c.cat c.db c.sch tab t ∧ (c.data t.uuid).isSome = true := by
  have hres : resolve c (env.parse tab) = ⟨c.db, c.sch, tab⟩ := by simp [resolve, hname]
  unfold Seen
  rw [hres]
  simp only [lookup, ne_eq, not_true_eq_false, if_false, hp.1, hp.2.1, hp.2.2]
  rcases getTable_cases c.cat c.db c.sch tab with ⟨t, ht, hg⟩ | ⟨hno, hg⟩
  · simp only [hg]
    rcases Option.eq_none_or_eq_some (c.data t.uuid) with hn | ⟨d, hn⟩
    · simp only [hn, reduceCtorEq, exists_false, false_iff]
      rintro ⟨x, hx, hd⟩
      rw [IsTable_unique hw hx ht, hn] at hd
      cases hd
    · simp only [hn]
      exact ⟨fun _ => ⟨t, ht, by simp [hn]⟩, fun _ => ⟨_, rfl⟩⟩
  · simp only [hg, reduceCtorEq, exists_false, false_iff]
    rintro ⟨x, hx, _⟩
    exact hno x hx

/-- **C57**, violated, always: whenever the table exists but its bare name names nothing in the session, an upload to it
fails with the message that it exists already, whatever the file; and an empty table is left in the storage, which no
name leads to. -/
theorem C57_violated_existing_always (env : Env) (c : Ctx) (f : File) (sch tab : String) (u : Nat) (hs : Sound env c)
    (hp : Plain sch) (t : Tab) (ht : IsTable c.cat c.db sch tab t) (hseen : ¬ Seen env c tab)
    (hsup : f.supported = true) (s : Nat) (hinf : f.own.or f.infer = some s) :
    (upload env c f sch tab u).2 = .error (.cat (.tableAlreadyExists tab)) ∧
    (upload env c f sch tab u).1.cat = c.cat ∧
    (upload env c f sch tab u).1.data u = some ⟨s, []⟩ := by
  have hsch : ∃ x, IsSchema c.cat c.db sch x := by
    obtain ⟨_, _, x, hx, _⟩ := ht; exact ⟨x, hx⟩
  obtain ⟨us, hre, ts, hst⟩ := upload_start env c sch hs hp hsch
  have hlk : ∃ e, lookup { c with udfs := us } (resolve { c with udfs := us } (env.parse tab)) = .error e := by
    rcases h : lookup { c with udfs := us } (resolve { c with udfs := us } (env.parse tab)) with e | p
    · exact ⟨e, rfl⟩
    · exact absurd ⟨p, h⟩ hseen
  obtain ⟨e, hlk⟩ := hlk
  have hck : uploadCheck env { c with udfs := us } sch tab = ({ c with udfs := us }, .ok (none, false)) := by
    simp [uploadCheck, hst, hlk]
  have hct := (C32_createTable c.cat hs.wf c.db sch tab (env.cols s) u env.now true).2.2.1 hp.2.1 ⟨t, ht⟩
  have hcd : createDelta env { c with udfs := us } ⟨c.db, sch, tab⟩ s u =
      (setData { c with udfs := us } u (some ⟨s, []⟩), .error (.cat (.tableAlreadyExists tab))) := by
    rcases getSchema_cases c.cat c.db sch hp.2.1 with ⟨x, _, hg⟩ | ⟨hn, _⟩
    · simp [createDelta, hs.store, hs.create, hg, setData, hct]
    · exact absurd hsch.choose_spec (hn _)
  have hup : upload env c f sch tab u =
      (setData { c with udfs := us } u (some ⟨s, []⟩), .error (.cat (.tableAlreadyExists tab))) := by
    simp [upload, hre, hck, hsup, hinf, hcd]
  rw [hup]
  exact ⟨rfl, rfl, by simp [setData]⟩

/-- **C57**, violated, always: whenever the table does not exist but its bare name names something in the session, be it a
table, an external table or a system table, the upload fails because there is no table; it is not created. -/
theorem C57_violated_missing_always (env : Env) (c : Ctx) (f : File) (sch tab : String) (u : Nat) (hs : Sound env c)
    (hp : Plain sch) (hsch : ∃ x, IsSchema c.cat c.db sch x) (hno : ∀ t, ¬ IsTable c.cat c.db sch tab t)
    (hseen : Seen env c tab) (hsup : f.supported = true) (hinf : (f.own.or f.infer).isSome = true) :
    (upload env c f sch tab u).2 = .error .noTable ∧
    (upload env c f sch tab u).1.cat = c.cat ∧ (upload env c f sch tab u).1.data = c.data := by
  obtain ⟨us, hre, ts, hst⟩ := upload_start env c sch hs hp hsch
  obtain ⟨p, hlk⟩ := hseen
  have hlk' : lookup { c with udfs := us } (resolve { c with udfs := us } (env.parse tab)) = .ok p := hlk
  have hck : ∃ x, uploadCheck env { c with udfs := us } sch tab = ({ c with udfs := us }, .ok (x, true)) := by
    cases p <;> simp [uploadCheck, hst, hlk']
  obtain ⟨x, hck⟩ := hck
  obtain ⟨s, hs'⟩ : ∃ s, (x.or f.own).or f.infer = some s := by
    obtain ⟨s, h⟩ := Option.isSome_iff_exists.1 hinf
    cases x with
    | none => exact ⟨s, by simpa using h⟩
    | some x => exact ⟨x, rfl⟩
  have htd : tryDelta { c with udfs := us } ⟨c.db, sch, tab⟩ = .error .noTable := by
    rcases getTable_cases c.cat c.db sch tab with ⟨t, ht, hg⟩ | ⟨_, hg⟩
    · exact absurd ht (hno t)
    · simp [tryDelta, lookup, hp.1, hp.2.1, hp.2.2, hg]
  have hup : upload env c f sch tab u = ({ c with udfs := us }, .error .noTable) := by
    simp [upload, hre, hck, hsup, hs', planTo, htd]
  rw [hup]
  exact ⟨rfl, rfl, rfl⟩

/-- **C57**, violated, always: if the bare name names one table and the request another one, the upload succeeds, but the file is
read with the columns of the former and appended to the latter. -/
theorem C57_violated_columns_always (env : Env) (c : Ctx) (f : File) (sch tab : String) (u : Nat) (hs : Sound env c)
    (hp : Plain sch) (t : Tab) (ht : IsTable c.cat c.db sch tab t) (d : Delta) (hd : c.data t.uuid = some d)
    (v : Nat) (d' : Delta) (hseen : lookup c (resolve c (env.parse tab)) = .ok (.delta v d')) (hsup : f.supported = true) :
    (upload env c f sch tab u).2 = .ok () ∧
    (upload env c f sch tab u).1.data t.uuid = some ⟨d.schema, d.rows ++ f.read d'.schema⟩ := by
  have hsch : ∃ x, IsSchema c.cat c.db sch x := by
    obtain ⟨_, _, x, hx, _⟩ := ht; exact ⟨x, hx⟩
  obtain ⟨us, hre, ts, hst⟩ := upload_start env c sch hs hp hsch
  have hlk' : lookup { c with udfs := us } (resolve { c with udfs := us } (env.parse tab)) = .ok (.delta v d') := hseen
  have hck : uploadCheck env { c with udfs := us } sch tab = ({ c with udfs := us }, .ok (some d'.schema, true)) := by
    simp [uploadCheck, hst, hlk']
  have htd := (tryDelta_iff { c with udfs := us } hs.wf sch tab hp t.uuid d).2 ⟨t, ht, rfl, hd⟩
  obtain ⟨s', vid, hnv⟩ := newVersion_ok c.cat t ht.1 (hs.versioned t ht.1) env.ver env.now
  have hpl := planTo_eq (env := env) (c := { c with udfs := us }) (rows := f.read d'.schema) hs.store hs.write htd hnv
  have hup : upload env c f sch tab u =
      ({ setData { c with udfs := us } t.uuid (some ⟨d.schema, d.rows ++ f.read d'.schema⟩) with cat := s' }, .ok ()) := by
    simp only [upload, hre, hck, hsup, Bool.not_true, Bool.false_eq_true, if_false, Option.some_or, if_true]
    exact hpl
  rw [hup]
  exact ⟨rfl, by simp [setData]⟩

/-- **C57 (exactly when).** In a sound session an upload of a readable file to an existing ordinary schema succeeds if and only if
the table exists there and its bare name names something in the session, or neither. -/
theorem C57_iff (env : Env) (c : Ctx) (f : File) (sch tab : String) (u : Nat) (hs : Sound env c)
    (hp : Plain sch) (hsch : ∃ x, IsSchema c.cat c.db sch x)
    (hload : ∀ t, IsTable c.cat c.db sch tab t → (c.data t.uuid).isSome = true)
    (hsup : f.supported = true) (hinf : (f.own.or f.infer).isSome = true) :
    (upload env c f sch tab u).2 = .ok () ↔ (Seen env c tab ↔ ∃ t, IsTable c.cat c.db sch tab t) := by
  obtain ⟨s, hs'⟩ := Option.isSome_iff_exists.1 hinf
  by_cases hseen : Seen env c tab <;> by_cases hex : ∃ t, IsTable c.cat c.db sch tab t
  · simp only [hseen, hex, iff_true]
    obtain ⟨t, ht⟩ := hex
    obtain ⟨d, hd⟩ := Option.isSome_iff_exists.1 (hload t ht)
    obtain ⟨us, hre, ts, hst⟩ := upload_start env c sch hs hp hsch
    obtain ⟨p, hlk⟩ := hseen
    have hlk' : lookup { c with udfs := us } (resolve { c with udfs := us } (env.parse tab)) = .ok p := hlk
    have hck : ∃ x, uploadCheck env { c with udfs := us } sch tab = ({ c with udfs := us }, .ok (x, true)) := by
      cases p <;> simp [uploadCheck, hst, hlk']
    obtain ⟨x, hck⟩ := hck
    obtain ⟨y, hy⟩ : ∃ y, (x.or f.own).or f.infer = some y := by
      cases x with
      | none => exact ⟨s, by simpa using hs'⟩
      | some x => exact ⟨x, rfl⟩
    obtain ⟨c', hpl⟩ := plan_ok env { c with udfs := us } sch tab (f.read y) hs.store hs.write hs.wf hs.versioned hp t ht d hd
    have : upload env c f sch tab u = (c', .ok ()) := by
      simp only [upload, hre, hck, hsup, hy, Bool.not_true, Bool.false_eq_true, if_false, if_true]
      exact hpl
    rw [this]
  · have := (C57_violated_missing_always env c f sch tab u hs hp hsch (fun t ht => hex ⟨t, ht⟩) hseen hsup hinf).1
    rw [this]
    simp only [reduceCtorEq, false_iff]
    exact fun h => hex (h.1 hseen)
  · obtain ⟨t, ht⟩ := hex
    have := (C57_violated_existing_always env c f sch tab u hs hp t ht hseen hsup s hs').1
    rw [this]
    simp only [reduceCtorEq, false_iff]
    exact fun h => hseen (h.2 ⟨t, ht⟩)
  · simp only [hseen, hex, iff_true]
    obtain ⟨us, hre, ts, hst⟩ := upload_start env c sch hs hp hsch
    have hlk : ∃ e, lookup { c with udfs := us } (resolve { c with udfs := us } (env.parse tab)) = .error e := by
      rcases h : lookup { c with udfs := us } (resolve { c with udfs := us } (env.parse tab)) with e | p
      · exact ⟨e, rfl⟩
      · exact absurd ⟨p, h⟩ hseen
    obtain ⟨e, hlk⟩ := hlk
    have hck : uploadCheck env { c with udfs := us } sch tab = ({ c with udfs := us }, .ok (none, false)) := by
      simp [uploadCheck, hst, hlk]
    obtain ⟨c2, c', h2, h3⟩ := create_plan_ok env { c with udfs := us } sch tab s u (f.read s) hs.store hs.create hs.write
      (hs.cols s) hs.wf hp hsch (fun t ht => hex ⟨t, ht⟩)
    have : upload env c f sch tab u = (c', .ok ()) := by
      simp [upload, hre, hck, hsup, hs', h2, h3]
    rw [this]

/-- Not seen although it exists: `s2.t` from a session in the schema `s4`. -/
example : IsTable exCtx.cat exCtx.db "s2" "t" ⟨2, 2, "t", 79⟩ ∧ ¬ Seen exEnv { exCtx with sch := "s4" } "t" := by
  refine ⟨⟨by simp [exCtx, exCat], rfl, ⟨2, 1, "s2"⟩, ⟨by simp [exCtx, exCat], rfl, ⟨1, "default"⟩, ⟨by simp [exCtx, exCat], rfl⟩, rfl⟩, rfl⟩, ?_⟩
  rintro ⟨p, h⟩
  have e : lookup { exCtx with sch := "s4" } (resolve { exCtx with sch := "s4" } (exEnv.parse "t")) = .error .noTable := by rfl
  rw [e] at h
  cases h

/-- Seen although it does not exist: a table of `s2` with the name of a system table, from a session in `system`. -/
example : Seen exEnv { exCtx with sch := "system" } "dropped_tables" ∧
    (upload exEnv { exCtx with sch := "system" } exFile "s2" "dropped_tables" 500).2 = .error .noTable :=
  ⟨⟨.system, by rfl⟩, by decide +kernel⟩

/-- Two tables of one name: the file is read with the columns of `public.t` and appended to `s2.t`. -/
example : lookup exCtx (resolve exCtx (exEnv.parse "t")) = .ok (.delta 77 ⟨1, [10]⟩) ∧ exCtx.data 79 = some ⟨2, [20]⟩ ∧
    exFile.read 1 ≠ exFile.read 2 := by refine ⟨by rfl, by rfl, by decide⟩

end Seafowl.Ddl
