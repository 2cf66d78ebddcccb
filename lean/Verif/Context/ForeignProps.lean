import Verif.Context.Foreign

/-!
# Properties of statements on tables that Seafowl does not own (C119, C120)
-/

namespace Seafowl.Foreign

open Seafowl.Meta (Text Opts Listing Place)

/-! ### Specification -/

/-- The table a name stands for, if it is a Delta table: directory and location. -/
def Names (env : Env) (c : Ctx) (r : TRef) (d : Key) (uri : Text) : Prop :=
  ∃ db, reload env c = .ok db ∧ lookup env db c r = .ok (.delta d uri)

/-- An object of the directory or of a directory below it. -/
def Inside (d k : Key) : Prop := d.bucket = k.bucket ∧ ∃ p, k.path = d.path ++ p

/-- The objects of the directory are gone, all others are as they were. -/
def Emptied (d : Key) (before after : Objs) : Prop :=
  ∀ k, (Inside d k → after.get k = none) ∧ (¬ Inside d k → after.get k = before.get k)

/-- The directory of the default store that belongs to the identifier at the end of a location. -/
def Twin (env : Env) (uri : Text) (own : Key) : Prop :=
  ∃ u root t, uuidOf env uri = some u ∧ env.internal = some (root, t) ∧ own = root.sub u

/-- The objects a statement may change, from its text alone: for INSERT the new file and the log in the
directory of the identifier; for UPDATE and DELETE the log of the table and the new file in the directory of the identifier; for
TRUNCATE the log; for VACUUM files that are not in the table; for DROP TABLE the directory of the
table; for DROP SCHEMA that of the first of its tables; for the others nothing. -/
def May (env : Env) (c : Ctx) : Stmt → Key → Prop
  | .insert r file _, k => ∃ d uri own, Names env c r d uri ∧ Twin env uri own ∧ (k = own.sub file ∨ k = own.sub logName)
  | .update r _ _ file, k | .delete r _ file, k =>
    ∃ d uri own, Names env c r d uri ∧ Twin env uri own ∧ (k = own.sub file ∨ k = d.sub logName)
  | .truncate r, k => ∃ d uri, Names env c r d uri ∧ k = d.sub logName
  | .vacuum r, k => ∃ d uri l f, Names env c r d uri ∧ loadLog c.objs d = some l ∧ f ∉ live l ∧ k = d.sub f
  | .dropTable r _, k => ∃ d uri, Names env c r d uri ∧ r.sch.getD c.sch ≠ "staging" ∧ Inside d k
  | .dropSchema _ name _, k => 
    ∃ db t ts d uri, reload env c = .ok db ∧ schemaTables db c name = some (t :: ts) ∧
      lookup env db c ⟨some c.db, some name, t⟩ = .ok (.delta d uri) ∧ Inside d k
  | _, _ => False

/-- INSERT into an Iceberg table is the subject of C87. -/
def IntoIceberg (env : Env) (c : Ctx) : Stmt → Prop
  | .insert r _ _ => ∃ db m o, reload env c = .ok db ∧ lookup env db c r = .ok (.iceberg m o)
  | _ => False

/-- Statements that define or rename something, or remove a function. -/
def Defines : Stmt → Prop
  | .createSchema _ | .createDb .. | .createTable _ | .ctas .. | .convert _ | .rename .. | .createFunction ..
  | .dropFunction _ => True
  | _ => False

/-! ### Objects -/

theorem get_put (w : Objs) (k : Key) (o : Obj) (k' : Key) :
    (w.put k o).get k' = if k' = k then some o else w.get k' := by
  unfold Objs.put Objs.get
  by_cases h : k' = k
  · subst h
    simp
  · simp only [h, if_false]
    rw [List.find?_cons_of_neg (by simpa using fun h' => h h'.symm)]
    congr 1
    induction w with
    | nil => rfl
    | cons e w ih =>
      by_cases he : e.1 = k
      · rw [List.filter_cons_of_neg (by simp [he]),
          List.find?_cons_of_neg (by simpa [he] using fun h' => h h'.symm)]
        exact ih
      · rw [List.filter_cons_of_pos (by simpa using he)]
        by_cases he' : e.1 = k'
        · rw [List.find?_cons_of_pos (by simpa using he'), List.find?_cons_of_pos (by simpa using he')]
        · rw [List.find?_cons_of_neg (by simpa using he'), List.find?_cons_of_neg (by simpa using he')]
          exact ih

theorem get_filter (w : Objs) (q : Key → Bool) (k : Key) :
    Objs.get (w.filter (fun e => q e.1)) k = if q k then w.get k else none := by
  unfold Objs.get
  induction w with
  | nil => simp
  | cons e w ih =>
    by_cases hq : q e.1 = true
    · rw [List.filter_cons_of_pos (by simpa using hq)]
      by_cases he : e.1 = k
      · rw [List.find?_cons_of_pos (by simpa using he), List.find?_cons_of_pos (by simpa using he)]
        rw [← he, hq]; rfl
      · rw [List.find?_cons_of_neg (by simpa using he), List.find?_cons_of_neg (by simpa using he)]
        exact ih
    · rw [List.filter_cons_of_neg (by simpa using hq)]
      by_cases he : e.1 = k
      · rw [ih, ← he]; simp [hq]
      · rw [List.find?_cons_of_neg (by simpa using he)]
        exact ih

theorem sub_inj (d : Key) (a b : Text) : d.sub a = d.sub b ↔ a = b := by
  unfold Key.sub
  constructor
  · intro h
    injection h with _ h
    exact (List.append_cancel_left h |> List.cons.inj).1
  · rintro rfl; rfl

theorem sub_eq (d e : Key) (a b : Text) : d.sub a = e.sub b ↔ d = e ∧ a = b := by
  cases d; cases e
  simp only [Key.sub, Key.mk.injEq]
  constructor
  · rintro ⟨h1, h2⟩
    have := List.append_inj' h2 rfl
    exact ⟨⟨h1, this.1⟩, (List.cons.inj this.2).1⟩
  · rintro ⟨⟨h1, h2⟩, h3⟩
    exact ⟨h1, by rw [h2, h3]⟩

theorem under_sub (d : Key) (f : Text) : under d (d.sub f) = true := by
  unfold under Key.sub
  simp

theorem under_iff (d k : Key) : under d k = true ↔ Inside d k := by
  unfold under Inside
  simp only [Bool.and_eq_true, beq_iff_eq, List.isPrefixOf_iff_prefix]
  constructor
  · rintro ⟨h, p, hp⟩; exact ⟨h, p, hp.symm⟩
  · rintro ⟨h, p, hp⟩; exact ⟨h, p, hp.symm⟩

theorem emptied_filter (d : Key) (w : Objs) : Emptied d w (w.filter (fun e => !under d e.1)) := by
  intro k
  rw [get_filter w (fun k => !under d k), ← under_iff]
  cases under d k <;> simp

/-- Writing rows changes at most the new file. -/
theorem get_writeRows (w : Objs) (d : Key) (file : Text) (rows : List Nat) (k : Key) (h : k ≠ d.sub file) :
    (writeRows w d file rows).1.get k = w.get k := by
  unfold writeRows
  split
  · rfl
  · simp [get_put, h]

theorem get_commit (w : Objs) (d : Key) (l : List Commit) (x : Commit) (k : Key) (h : k ≠ d.sub logName) :
    (commit w d l x).get k = w.get k := by
  simp [commit, get_put, h]

theorem loadLog_commit (w : Objs) (d : Key) (l : List Commit) (x : Commit) :
    loadLog (commit w d l x) d = some (l ++ [x]) := by
  unfold loadLog commit
  rw [get_put]
  simp only [if_true]
  cases l <;> rfl

theorem foreign_reply {s : Store} (h : Foreign s) (m : Meth) : s.reply m = .error .notImplemented := by
  cases h <;> rfl

theorem tryDelta_ok {env : Env} {db : Meta.Database} {c : Ctx} {r : TRef} {d : Key} {uri : Text}
    (h : tryDelta env db c r = .ok (d, uri)) : lookup env db c r = .ok (.delta d uri) := by
  unfold tryDelta at h
  split at h
  · simp at h
  · next hl => simp at h; rw [hl, h.1, h.2]
  · simp at h

theorem lookup_try {env : Env} {db : Meta.Database} {c : Ctx} {r : TRef} {d : Key} {uri : Text}
    (h : lookup env db c r = .ok (.delta d uri)) : tryDelta env db c r = .ok (d, uri) := by
  unfold tryDelta
  rw [h]

/-! ### Which objects a statement changes -/

theorem ask_objs (c : Ctx) (m : Meth) : (ask c m).1 = c := rfl

theorem rewrite_frame (env : Env) (c : Ctx) (d : Key) (u : Text) (root : Key) (l : List Commit) (file : Text)
    (rows : List Nat) (removes : List Text) (k : Key)
    (h : (rewrite env c d u root l file rows removes).1.objs.get k ≠ c.objs.get k) :
    k = (root.sub u).sub file ∨ k = d.sub logName := by
  refine Classical.byContradiction fun hn => ?_
  have hn := not_or.mp hn
  apply h
  unfold rewrite
  simp only [ask_objs]
  rw [get_commit _ _ _ _ _ hn.2]
  exact get_writeRows _ _ _ _ _ hn.1

theorem planTo_frame (env : Env) (c : Ctx) (uri file : Text) (rows : List Nat) (k : Key)
    (h : (planTo env c uri file rows).1.objs.get k ≠ c.objs.get k) :
    ∃ own, Twin env uri own ∧ (k = own.sub file ∨ k = own.sub logName) := by
  unfold planTo at h
  split at h
  · exact absurd rfl h
  · next u hu =>
    split at h
    · exact absurd rfl h
    · next root t hi =>
      refine ⟨root.sub u, ⟨u, root, t, hu, hi, rfl⟩, ?_⟩
      refine Classical.byContradiction fun hn => ?_
      have hn := not_or.mp hn
      apply h
      simp only
      split
      · exact get_writeRows _ _ _ _ _ hn.1
      · simp only [ask_objs]
        exact (get_commit _ (ownDir root u) _ _ _ hn.2).trans (get_writeRows _ _ _ _ _ hn.1)

theorem deleteDelta_frame (env : Env) (db : Meta.Database) (c : Ctx) (r : TRef) (k : Key)
    (h : (deleteDelta env db c r).1.objs.get k ≠ c.objs.get k) :
    ∃ d uri, lookup env db c r = .ok (.delta d uri) ∧ Inside d k := by
  unfold deleteDelta at h
  split at h
  · exact absurd rfl h
  · next d uri ht =>
    refine ⟨d, uri, tryDelta_ok ht, ?_⟩
    refine Classical.byContradiction fun hn => ?_
    exact h ((emptied_filter d c.objs k).2 hn)

theorem tombstones_not_live {l : List Commit} {f : Text} (h : f ∈ tombstones l) : f ∉ live l := by
  unfold tombstones at h
  have := (List.mem_filter.mp h).2
  simpa using this

/-- **C119 (frame).** On a metastore that Seafowl does not own, a statement changes at most the objects that its
text allows (`May`). -/
theorem C119_frame (env : Env) (c : Ctx) (hf : Foreign c.store) (s : Stmt) (hi : ¬ IntoIceberg env c s) (k : Key)
    (h : (exec env c s).1.objs.get k ≠ c.objs.get k) : May env c s k := by
  unfold exec at h
  cases hr : reload env c with
  | error e => rw [hr] at h; exact absurd rfl h
  | ok db =>
    rw [hr] at h
    simp only at h
    cases s with
    | insert r file rows =>
      simp only [execStmt, doInsert] at h
      split at h
      · exact absurd rfl h
      · next d uri hl =>
        obtain ⟨own, ht, hk⟩ := planTo_frame _ _ _ _ _ _ h
        exact ⟨d, uri, own, ⟨db, hr, hl⟩, ht, hk⟩
      · next m o hl => exact absurd ⟨db, m, o, hr, hl⟩ hi
      · exact absurd rfl h
    | update r p f file =>
      simp only [execStmt, doUpdate] at h
      split at h
      · exact absurd rfl h
      · next root t hin =>
        split at h
        · exact absurd rfl h
        · next d uri ht =>
          split at h
          · exact absurd rfl h
          · next l hl =>
            split at h
            · exact absurd rfl h
            · next u hu =>
              split at h
              · exact absurd rfl h
              · exact ⟨d, uri, root.sub u, ⟨db, hr, tryDelta_ok ht⟩, ⟨u, root, t, hu, hin, rfl⟩,
                  rewrite_frame _ _ _ _ _ _ _ _ _ _ h⟩
    | delete r p file =>
      simp only [execStmt, doDelete] at h
      split at h
      · exact absurd rfl h
      · next root t hin =>
        split at h
        · exact absurd rfl h
        · next d uri ht =>
          split at h
          · exact absurd rfl h
          · next u hu =>
            split at h
            · exact absurd rfl h
            · next l hl =>
              split at h
              · exact ⟨d, uri, root.sub u, ⟨db, hr, tryDelta_ok ht⟩, ⟨u, root, t, hu, hin, rfl⟩,
                  rewrite_frame _ _ _ _ _ _ _ _ _ _ h⟩
              · split at h
                · exact absurd rfl h
                · exact ⟨d, uri, root.sub u, ⟨db, hr, tryDelta_ok ht⟩, ⟨u, root, t, hu, hin, rfl⟩,
                    rewrite_frame _ _ _ _ _ _ _ _ _ _ h⟩
    | truncate r =>
      simp only [execStmt, doTruncate] at h
      split at h
      · exact absurd rfl h
      · next d uri ht =>
        split at h
        · exact absurd rfl h
        · next l hl =>
          refine ⟨d, uri, ⟨db, hr, tryDelta_ok ht⟩, ?_⟩
          exact Classical.byContradiction fun hn => h (get_commit _ _ _ _ _ hn)
    | vacuum r =>
      simp only [execStmt, doVacuum] at h
      split at h
      · exact absurd rfl h
      · next d uri ht =>
        split at h
        · exact absurd rfl h
        · next l hl =>
          simp only [ask_objs] at h
          rw [get_filter c.objs (fun k => !(tombstones l).any (fun f => k == d.sub f))] at h
          by_cases ha : ((tombstones l).any (fun f => k == d.sub f)) = true
          · obtain ⟨f, hm, he⟩ := List.any_eq_true.mp ha
            exact ⟨d, uri, l, f, ⟨db, hr, tryDelta_ok ht⟩, hl, tombstones_not_live hm, by simpa using he⟩
          · simp [ha] at h
    | vacuumDb name =>
      simp only [execStmt, doVacuumDb, foreign_reply hf] at h
      split at h <;> exact absurd rfl h
    | dropTable r ie =>
      simp only [execStmt, doDropTable] at h
      split at h
      · exact absurd rfl h
      · split at h
        · split at h <;> exact absurd rfl h
        · next hs =>
          simp only [ask_objs] at h
          obtain ⟨d, uri, hl, hu⟩ := deleteDelta_frame _ _ _ _ _ h
          exact ⟨d, uri, ⟨db, hr, hl⟩, hs, hu⟩
    | dropSchema cat name ie =>
      simp only [execStmt, doDropSchema] at h
      split at h
      · exact absurd rfl h
      · split at h
        · split at h <;> exact absurd rfl h
        · next ts hts =>
          cases ts with
          | nil => simp only [dropLoop, ask_objs] at h; exact absurd rfl h
          | cons t ts =>
            have key : (dropLoop env db c name (t :: ts)).1.objs = (deleteDelta env db c ⟨some c.db, some name, t⟩).1.objs ∧
                ∃ e, (dropLoop env db c name (t :: ts)).2 = .error e := by
              simp only [dropLoop]
              rcases hd : deleteDelta env db c ⟨some c.db, some name, t⟩ with ⟨c1, e | a⟩
              · exact ⟨rfl, e, rfl⟩
              · have hst : c1.store = c.store := by
                  unfold deleteDelta at hd
                  split at hd
                  · simp at hd
                  · simp at hd; rw [← hd]
                simp [ask, hst, foreign_reply hf]
            obtain ⟨e, he⟩ := key.2
            rcases hd : dropLoop env db c name (t :: ts) with ⟨c1, r1⟩
            rw [hd] at h key he
            simp only at key he
            subst he
            simp only [key.1] at h
            obtain ⟨d, uri, hl, hu⟩ := deleteDelta_frame _ _ _ _ _ h
            exact ⟨db, t, ts, d, uri, hr, hts, hl, hu⟩
    | createSchema name => exact absurd rfl h
    | createDb name ine =>
      simp only [execStmt, doCreateDb, foreign_reply hf, ask] at h
      exact absurd rfl h
    | createTable r => simp only [execStmt, createDelta] at h; split at h <;> exact absurd rfl h
    | ctas r ine =>
      simp only [execStmt, doCtas, createDelta] at h
      split at h
      · exact absurd rfl h
      · split at h <;> exact absurd rfl h
    | convert r => simp only [execStmt, createDelta] at h; split at h <;> exact absurd rfl h
    | rename old new =>
      simp only [execStmt, doRename] at h
      split at h
      · exact absurd rfl h
      · exact absurd rfl h
      · split at h <;> exact absurd rfl h
    | createFunction name details =>
      simp only [execStmt, doCreateFunction] at h
      split at h <;> exact absurd rfl h
    | dropFunction names => exact absurd rfl h
    | createExternal name ine p =>
      simp only [execStmt, doCreateExternal] at h
      split at h
      · split at h
        · split at h <;> exact absurd rfl h
        · exact absurd rfl h
      · exact absurd rfl h

/-! ### Statements that are refused -/

/-- **C119 (refused).** On a metastore that Seafowl does not own, creating schemas, databases and tables, converting,
renaming, creating and dropping functions all fail (but for CREATE TABLE IF NOT EXISTS of an existing table), and
leave every object and the staging schema as they were. -/
theorem C119_refused (env : Env) (c : Ctx) (hf : Foreign c.store) (s : Stmt) (hd : Defines s) :
    (exec env c s).1.objs = c.objs ∧ (exec env c s).1.staging = c.staging ∧
      ((exec env c s).2 = .ok () → ∃ r d uri, s = .ctas r true ∧ Names env c r d uri) := by
  unfold exec
  cases hr : reload env c with
  | error e => simp
  | ok db =>
    cases s with
    | createSchema name => simp [execStmt, ask, foreign_reply hf]
    | createDb name ine => simp [execStmt, doCreateDb, ask, foreign_reply hf]
    | createTable r => simp only [execStmt, createDelta]; split <;> simp [ask, foreign_reply hf]
    | convert r => simp only [execStmt, createDelta]; split <;> simp [ask, foreign_reply hf]
    | ctas r ine =>
      simp only [execStmt, doCtas, createDelta]
      split
      · next d heq =>
        refine ⟨rfl, rfl, fun _ => ⟨r, d.1, d.2, rfl, db, hr, tryDelta_ok heq⟩⟩
      · split <;> simp [ask, foreign_reply hf]
    | rename old new =>
      simp only [execStmt, doRename]
      split
      · simp
      · simp
      · split <;> simp [ask, foreign_reply hf]
    | createFunction name details =>
      simp only [execStmt, doCreateFunction]
      split <;> simp [ask, foreign_reply hf]
    | dropFunction names => simp [execStmt, ask, foreign_reply hf]
    | _ => exact absurd hd (by simp [Defines])

/-- **C119 (no metastore).** Without a metastore every statement fails, saying so, and changes nothing. -/
theorem C119_none (env : Env) (c : Ctx) (h : c.store = empty) (s : Stmt) :
    exec env c s = (c, .error (.list .noInlineMetastore)) := by
  unfold exec reload
  rw [h]
  rfl

/-- **C119 (no answer).** If the metastore does not answer, or lists a table that cannot be built, no
statement does anything. -/
theorem C119_unlisted (env : Env) (c : Ctx) (e : Err) (h : reload env c = .error e) (s : Stmt) :
    exec env c s = (c, .error e) := by
  unfold exec
  rw [h]

/-- **C119 (foreign directories, part).** INSERT, UPDATE and DELETE of a table whose location does not end with an
identifier fail and change nothing at all.  Missing: the same for other tables (`C119_insert_violated`,
`C119_update_violated`). -/
theorem C119_no_uuid_partial (env : Env) (c : Ctx) (r : TRef) (d : Key) (uri : Text) (hn : Names env c r d uri)
    (hu : uuidOf env uri = none) (s : Stmt)
    (hs : (∃ file rows, s = .insert r file rows) ∨ (∃ p f file, s = .update r p f file) ∨ ∃ p file, s = .delete r p file) :
    ∃ e, exec env c s = (c, .error e) := by
  obtain ⟨db, hr, hl⟩ := hn
  unfold exec
  rw [hr]
  rcases hs with ⟨file, rows, rfl⟩ | ⟨p, f, file, rfl⟩ | ⟨p, file, rfl⟩
  · simp [execStmt, doInsert, hl, planTo, hu]
  · simp only [execStmt, doUpdate]
    cases env.internal with
    | none => exact ⟨_, rfl⟩
    | some x =>
      simp only [lookup_try hl, hu]
      cases loadLog c.objs d <;> exact ⟨_, rfl⟩
  · simp only [execStmt, doDelete]
    cases env.internal with
    | none => exact ⟨_, rfl⟩
    | some x => simp only [lookup_try hl, hu]; exact ⟨_, rfl⟩

/-- **C119 (read-only server).** Without a default store INSERT, UPDATE and DELETE of Delta tables fail and change nothing. -/
theorem C119_no_store_partial (env : Env) (c : Ctx) (hi : env.internal = none) (s : Stmt)
    (hice : ¬ IntoIceberg env c s)
    (hs : (∃ r file rows, s = .insert r file rows) ∨ (∃ r p f file, s = .update r p f file) ∨ ∃ r p file, s = .delete r p file) :
    ∃ e, exec env c s = (c, .error e) := by
  unfold exec
  cases hr : reload env c with
  | error e => exact ⟨e, rfl⟩
  | ok db =>
    rcases hs with ⟨r, file, rows, rfl⟩ | ⟨r, p, f, file, rfl⟩ | ⟨r, p, file, rfl⟩
    · simp only [execStmt, doInsert]
      split
      · exact ⟨_, rfl⟩
      · unfold planTo
        rw [hi]
        split <;> exact ⟨_, rfl⟩
      · next m o hl => exact absurd ⟨db, m, o, hr, hl⟩ hice
      · exact ⟨_, rfl⟩
    · simp only [execStmt, doUpdate, hi]; exact ⟨_, rfl⟩
    · simp only [execStmt, doDelete, hi]; exact ⟨_, rfl⟩

/-! ### Statements that fail and yet change tables -/

/-- **C119 violated (DROP TABLE).** For every Delta table of such a metastore: DROP TABLE fails with "not
implemented", and all objects of the table are gone; nothing else is. -/
theorem C119_drop_violated (env : Env) (c : Ctx) (hf : Foreign c.store) (r : TRef) (ie : Bool) (d : Key) (uri : Text)
    (hn : Names env c r d uri) (hs : r.sch.getD c.sch ≠ "staging") :
    (exec env c (.dropTable r ie)).2 = .error .notImplemented ∧
      Emptied d c.objs (exec env c (.dropTable r ie)).1.objs := by
  obtain ⟨db, hr, hl⟩ := hn
  have ht := lookup_try hl
  have hex : exec env c (.dropTable r ie) =
      ({ c with objs := c.objs.filter (fun e => !under d e.1) }, .error .notImplemented) := by
    unfold exec
    rw [hr]
    simp only [execStmt, doDropTable, ht, if_neg hs, deleteDelta, ask, foreign_reply hf]
  rw [hex]
  exact ⟨rfl, emptied_filter d c.objs⟩

/-- **C119 (missing tables).** DROP TABLE of a name that is no table fails, and with IF EXISTS does nothing. -/
theorem C119_drop_missing (env : Env) (c : Ctx) (hf : Foreign c.store) (r : TRef) (db : Meta.Database)
    (hr : reload env c = .ok db) (e : Err) (hl : lookup env db c r = .error e) (hs : r.sch.getD c.sch ≠ "staging") :
    exec env c (.dropTable r false) = (c, .error .notImplemented) ∧ exec env c (.dropTable r true) = (c, .ok ()) := by
  have ht : tryDelta env db c r = .error e := by
    unfold tryDelta
    rw [hl]
  unfold exec
  rw [hr]
  simp only [execStmt, doDropTable, ht, if_neg hs, deleteDelta, ask, foreign_reply hf, and_self]

theorem reload_objs (env : Env) (c : Ctx) (w : Objs) : reload env { c with objs := w } = reload env c := rfl

/-- The name of a listed Delta table whose log is gone does not open any more. -/
theorem lookup_gone (env : Env) (db : Meta.Database) (c : Ctx) (r : TRef) (d : Key) (uri : Text) (w : Objs)
    (hl : lookup env db c r = .ok (.delta d uri)) (hs : r.sch.getD c.sch ≠ "staging") (hw : loadLog w d = none) :
    lookup env db { c with objs := w } r = .error .load := by
  unfold lookup at hl ⊢
  simp only at hl ⊢
  split at hl
  · simp at hl
  · next h1 =>
    rw [if_neg h1]
    split at hl
    · simp at hl
    · next h2 =>
      rw [if_neg h2]
      split at hl
      · next t hf =>
        unfold Meta.find at hf
        simp only [if_neg hs] at hf
        split at hf <;> simp at hf
      · split at hl <;> simp at hl
      · simp at hl
      · next p hf =>
        unfold openTable at hl ⊢
        split at hl
        · next d' uri' hp =>
          simp only
          split at hl
          · simp at hl
            rw [hl.1, hw]
            rfl
          · simp at hl
        · simp at hl
          next h1 => exact absurd hl (h1 _ _)

/-- **C119 violated (DROP TABLE, what is left).** After the failed DROP TABLE the metastore still lists the table, but
it cannot be read any more. -/
theorem C119_drop_unreadable (env : Env) (c : Ctx) (hf : Foreign c.store) (r : TRef) (ie : Bool) (d : Key) (uri : Text)
    (hn : Names env c r d uri) (hs : r.sch.getD c.sch ≠ "staging") :
    query env (exec env c (.dropTable r ie)).1 r = .error .load := by
  have hv := (C119_drop_violated env c hf r ie d uri hn hs).2
  obtain ⟨db, hr, hl⟩ := hn
  have hc : (exec env c (.dropTable r ie)).1 = { c with objs := (exec env c (.dropTable r ie)).1.objs } := by
    unfold exec
    rw [hr]
    simp only [execStmt, doDropTable, lookup_try hl, if_neg hs, deleteDelta, ask]
  have hw : loadLog (exec env c (.dropTable r ie)).1.objs d = none := by
    unfold loadLog
    rw [(hv _).1 ((under_iff _ _).1 (under_sub _ _))]
  rw [hc]
  unfold query
  rw [reload_objs, hr]
  simp only [tryDelta, lookup_gone env db c r d uri _ hl hs hw]

/-- **C119 violated (DROP SCHEMA).** The first table of the schema loses all its objects, and the statement fails. -/
theorem C119_drop_schema_violated (env : Env) (c : Ctx) (hf : Foreign c.store) (name : String) (ie : Bool)
    (db : Meta.Database) (hr : reload env c = .ok db) (t : String) (ts : List String)
    (hts : schemaTables db c name = some (t :: ts)) (d : Key) (uri : Text)
    (hl : lookup env db c ⟨some c.db, some name, t⟩ = .ok (.delta d uri)) :
    (exec env c (.dropSchema none name ie)).2 = .error .notImplemented ∧
      Emptied d c.objs (exec env c (.dropSchema none name ie)).1.objs := by
  have hex : exec env c (.dropSchema none name ie) =
      ({ c with objs := c.objs.filter (fun e => !under d e.1) }, .error .notImplemented) := by
    unfold exec
    rw [hr]
    simp [execStmt, doDropSchema, hts, dropLoop, deleteDelta, lookup_try hl, ask, foreign_reply hf]
  rw [hex]
  exact ⟨rfl, emptied_filter d c.objs⟩

/-! ### INSERT, UPDATE, DELETE, TRUNCATE -/

theorem liveFrom_append (fs : List Text) (a b : List Commit) : liveFrom fs (a ++ b) = liveFrom (liveFrom fs a) b := by
  induction a generalizing fs with
  | nil => rfl
  | cons c a ih => exact ih _

theorem live_snoc (l : List Commit) (c : Commit) :
    live (l ++ [c]) = (live l).filter (fun f => !c.removes.contains f) ++ c.adds := by
  unfold live
  rw [liveFrom_append]
  rfl

theorem scanFiles_congr (w w' : Objs) (d : Key) (fs : List Text) (h : ∀ f ∈ fs, w'.get (d.sub f) = w.get (d.sub f)) :
    scanFiles w' d fs = scanFiles w d fs := by
  induction fs with
  | nil => rfl
  | cons f fs ih =>
    unfold scanFiles
    rw [ih (fun g hg => h g (by simp [hg]))]
    unfold fileRows
    rw [h f (by simp)]

theorem scanFiles_append (w : Objs) (d : Key) (a b : List Text) (x y : List Nat) (ha : scanFiles w d a = some x)
    (hb : scanFiles w d b = some y) : scanFiles w d (a ++ b) = some (x ++ y) := by
  induction a generalizing x with
  | nil => simp [scanFiles] at ha; subst ha; simpa using hb
  | cons f a ih =>
    unfold scanFiles at ha
    split at ha
    · next p q hp hq =>
      simp at ha
      subst ha
      show scanFiles w d (f :: (a ++ b)) = _
      unfold scanFiles
      rw [hp, ih q hq]
      simp
    · simp at ha

/-- A file that cannot be read makes the table unreadable. -/
theorem scanFiles_none (w : Objs) (d : Key) (fs : List Text) (f : Text) (hf : f ∈ fs) (hn : fileRows w d f = none) :
    scanFiles w d fs = none := by
  induction fs with
  | nil => simp at hf
  | cons g fs ih =>
    unfold scanFiles
    rcases List.mem_cons.mp hf with rfl | h
    · rw [hn]
    · rw [ih h]
      split
      · next h1 h2 => simp at h2
      · rfl

/-- **C119 violated (INSERT).** For every Delta table whose location ends with an identifier, if the default store has
a readable table in the directory of that name: INSERT fails with "not implemented", and that table has the rows of the
failed statement after its own. -/
theorem C119_insert_violated (env : Env) (c : Ctx) (hf : Foreign c.store) (r : TRef) (file : Text) (rows old : List Nat)
    (d own : Key) (uri : Text) (hn : Names env c r d uri) (ht : Twin env uri own)
    (hfile : file ≠ logName) (hfresh : ∀ l, loadLog c.objs own = some l → file ∉ live l) (hsc : scan c.objs own = some old) :
    (exec env c (.insert r file rows)).2 = .error .notImplemented ∧
      scan (exec env c (.insert r file rows)).1.objs own = some (old ++ rows) := by
  obtain ⟨db, hr, hl⟩ := hn
  obtain ⟨u, root, t, hu, hi, rfl⟩ := ht
  unfold scan at hsc
  cases hlog : loadLog c.objs (root.sub u) with
  | none => simp [hlog] at hsc
  | some l =>
    simp only [hlog] at hsc
    have hlw : loadLog (writeRows c.objs (root.sub u) file rows).1 (root.sub u) = some l := by
      rw [← hlog]
      unfold loadLog
      rw [get_writeRows _ _ _ _ _ (by rw [Ne, sub_inj]; exact fun h => hfile h.symm)]
    have hex : exec env c (.insert r file rows) =
        ({ c with
            objs := commit (writeRows c.objs (root.sub u) file rows).1 (root.sub u) l
              ⟨env.now, (writeRows c.objs (root.sub u) file rows).2, []⟩ }, .error .notImplemented) := by
      unfold exec
      rw [hr]
      simp [execStmt, doInsert, hl, planTo, hu, hi, ownDir, hlw, ask, foreign_reply hf]
    rw [hex]
    refine ⟨rfl, ?_⟩
    simp only
    unfold scan
    rw [loadLog_commit]
    simp only [live_snoc]
    have hfl : (live l).filter (fun f => !([] : List Text).contains f) = live l := by simp
    rw [hfl]
    have hlogfile : ∀ f, f ∈ live l → f ≠ logName := by
      intro f hm he
      subst he
      have : fileRows c.objs (root.sub u) logName = none := by
        unfold fileRows
        unfold loadLog at hlog
        split at hlog
        · next h => rw [h]
        · simp at hlog
      rw [scanFiles_none _ _ _ _ hm this] at hsc
      simp at hsc
    apply scanFiles_append
    · rw [← hsc]
      apply scanFiles_congr
      intro f hm
      rw [get_commit _ _ _ _ _ (by rw [Ne, sub_inj]; exact hlogfile f hm)]
      exact get_writeRows _ _ _ _ _ (by rw [Ne, sub_inj]; rintro rfl; exact hfresh l hlog hm)
    · unfold writeRows
      by_cases he : rows = []
      · simp [he, scanFiles]
      · simp only [he, if_false, scanFiles]
        have hg : (commit (c.objs.put ((root.sub u).sub file) (.data rows)) (root.sub u) l ⟨env.now, [file], []⟩).get
            ((root.sub u).sub file) = some (.data rows) := by
          rw [get_commit _ _ _ _ _ (by rw [Ne, sub_inj]; exact hfile), get_put]
          simp
        simp [fileRows, hg]

/-- **C119 violated (UPDATE).** For every readable Delta table whose location ends with an identifier, but which is not
in the directory of that name in the default store: an UPDATE that matches a row fails with "not implemented",
and the table cannot be read any more, since its log names a file that is in the other directory. -/
theorem C119_update_violated (env : Env) (c : Ctx) (hf : Foreign c.store) (r : TRef) (p : Nat → Bool) (f : Nat → Nat)
    (file : Text) (d own : Key) (uri : Text) (hn : Names env c r d uri) (ht : Twin env uri own) (hne : own ≠ d)
    (hfile : file ≠ logName) (hfresh : c.objs.get (d.sub file) = none)
    (rows : List Nat) (hsc : scan c.objs d = some rows) (x : Nat) (hx : x ∈ rows) (hp : p x = true) :
    (exec env c (.update r p f file)).2 = .error .notImplemented ∧
      scan (exec env c (.update r p f file)).1.objs d = none := by
  obtain ⟨db, hr, hl⟩ := hn
  obtain ⟨u, root, t, hu, hi, rfl⟩ := ht
  unfold scan at hsc
  cases hlog : loadLog c.objs d with
  | none => simp [hlog] at hsc
  | some l =>
    simp only [hlog] at hsc
    -- the files that the statement reads, and their rows
    have hread : ∀ fs, (∀ g ∈ fs, g ∈ live l) → ∀ rs, scanFiles c.objs d fs = some rs →
        ∃ rs', scanFiles c.objs d (fs.filter (hit c.objs d p)) = some rs' ∧ (∀ y ∈ rs, p y = true → y ∈ rs') := by
      intro fs
      induction fs with
      | nil => intro _ rs h; simp [scanFiles] at h; subst h; exact ⟨[], rfl, by simp⟩
      | cons g fs ih =>
        intro hm rs h
        unfold scanFiles at h
        split at h
        · next a b ha hb =>
          simp at h
          subst h
          obtain ⟨rs', h1, h2⟩ := ih (fun g' hg' => hm g' (by simp [hg'])) b hb
          by_cases hh : hit c.objs d p g = true
          · rw [List.filter_cons_of_pos hh]
            refine ⟨a ++ rs', ?_, ?_⟩
            · unfold scanFiles
              rw [ha, h1]
            · intro y hy hpy
              rcases List.mem_append.mp hy with h | h
              · exact List.mem_append_left _ h
              · exact List.mem_append_right _ (h2 y h hpy)
          · rw [List.filter_cons_of_neg hh]
            refine ⟨rs', h1, ?_⟩
            intro y hy hpy
            rcases List.mem_append.mp hy with h | h
            · exfalso
              apply hh
              unfold hit
              rw [ha]
              exact List.any_eq_true.mpr ⟨y, h, hpy⟩
            · exact h2 y h hpy
        · simp at h
    obtain ⟨rs', h1, h2⟩ := hread (live l) (fun _ h => h) rows hsc
    have hne' : rs'.map (fun x => if p x then f x else x) ≠ [] := by
      intro h
      have := h2 x hx hp
      rw [List.map_eq_nil_iff] at h
      rw [h] at this
      simp at this
    have hex : exec env c (.update r p f file) =
        ({ c with
            objs := commit (c.objs.put ((root.sub u).sub file) (.data (rs'.map (fun x => if p x then f x else x)))) d l
              ⟨env.now, [file], (live l).filter (hit c.objs d p)⟩ }, .error .notImplemented) := by
      unfold exec
      rw [hr]
      simp only [execStmt, doUpdate, hi, lookup_try hl, hlog, hu, h1, rewrite, writeRows, ownDir, if_neg hne', ask,
        foreign_reply hf]
    rw [hex]
    refine ⟨rfl, ?_⟩
    simp only
    unfold scan
    rw [loadLog_commit]
    simp only [live_snoc]
    refine scanFiles_none _ _ _ file (by simp) ?_
    unfold fileRows
    rw [get_commit _ _ _ _ _ (by rw [Ne, sub_inj]; exact hfile), get_put,
      if_neg (by rw [sub_eq]; exact fun h => hne h.1.symm), hfresh]

/-- **C119 (TRUNCATE).** TRUNCATE TABLE of such a table succeeds, and the table is empty. -/
theorem C119_truncate (env : Env) (c : Ctx) (r : TRef) (d : Key) (uri : Text) (hn : Names env c r d uri)
    (l : List Commit) (hlog : loadLog c.objs d = some l) :
    (exec env c (.truncate r)).2 = .ok () ∧ scan (exec env c (.truncate r)).1.objs d = some [] := by
  obtain ⟨db, hr, hl⟩ := hn
  have hex : exec env c (.truncate r) = ({ c with objs := commit c.objs d l ⟨env.now, [], live l⟩ }, .ok ()) := by
    unfold exec
    rw [hr]
    simp only [execStmt, doTruncate, lookup_try hl, hlog]
  rw [hex]
  refine ⟨rfl, ?_⟩
  simp only
  unfold scan
  rw [loadLog_commit]
  simp only [live_snoc]
  have : (live l).filter (fun f => !(live l).contains f) = [] := by
    rw [List.filter_eq_nil_iff]
    intro f hf
    simp [hf]
  rw [this]
  rfl

/-- **C119 (VACUUM).** VACUUM TABLE of such a table fails, after deleting files; the rows of the table are what they were. -/
theorem C119_vacuum (env : Env) (c : Ctx) (hf : Foreign c.store) (r : TRef) (d : Key) (uri : Text)
    (hn : Names env c r d uri) (rows : List Nat) (hsc : scan c.objs d = some rows)
    (hlogname : ∀ l, loadLog c.objs d = some l → ∀ x ∈ l, logName ∉ x.removes) :
    (exec env c (.vacuum r)).2 = .error .notImplemented ∧ scan (exec env c (.vacuum r)).1.objs d = some rows ∧
      ∀ l f, loadLog c.objs d = some l → f ∈ tombstones l → (exec env c (.vacuum r)).1.objs.get (d.sub f) = none := by
  obtain ⟨db, hr, hl⟩ := hn
  unfold scan at hsc
  cases hlog : loadLog c.objs d with
  | none => simp [hlog] at hsc
  | some l =>
    simp only [hlog] at hsc
    have hex : exec env c (.vacuum r) =
        ({ c with objs := c.objs.filter (fun e => !(tombstones l).any (fun f => e.1 == d.sub f)) },
          .error .notImplemented) := by
      unfold exec
      rw [hr]
      simp only [execStmt, doVacuum, lookup_try hl, hlog, ask, foreign_reply hf]
    have hget : ∀ f, f ∉ tombstones l →
        Objs.get (c.objs.filter (fun e => !(tombstones l).any (fun f => e.1 == d.sub f))) (d.sub f) = c.objs.get (d.sub f) := by
      intro f hf
      rw [get_filter c.objs (fun k => !(tombstones l).any (fun f => k == d.sub f))]
      rw [if_pos]
      simp only [Bool.not_eq_true', List.any_eq_false, beq_iff_eq, sub_inj]
      rintro g hg rfl
      exact hf hg
    rw [hex]
    refine ⟨rfl, ?_, ?_⟩
    · simp only
      have hll : loadLog (c.objs.filter (fun e => !(tombstones l).any (fun f => e.1 == d.sub f))) d = some l := by
        rw [← hlog]
        unfold loadLog
        rw [hget]
        unfold tombstones
        intro h
        obtain ⟨x, hx, h⟩ := List.mem_flatMap.mp (List.mem_filter.mp h).1
        exact hlogname l hlog x hx h
      unfold scan
      rw [hll]
      simp only
      rw [← hsc]
      exact scanFiles_congr _ _ _ _ fun f hf => hget f fun h => tombstones_not_live h hf
    · intro l' f hl' hm
      simp only [Option.some.injEq] at hl'
      subst hl'
      simp only
      rw [get_filter c.objs (fun k => !(tombstones l).any (fun f => k == d.sub f)), if_neg]
      simp only [Bool.not_eq_true', Bool.not_eq_false, List.any_eq_true, beq_iff_eq, sub_inj]
      exact ⟨f, hm, rfl⟩

/-- **C119 violated (CREATE FUNCTION).** CREATE FUNCTION fails, but from then on the session has the function. -/
theorem C119_function_violated (env : Env) (c : Ctx) (hf : Foreign c.store) (db : Meta.Database)
    (hr : reload env c = .ok db) (name details : String) (hok : env.udfOk details = true) :
    (exec env c (.createFunction name details)).2 = .error .notImplemented ∧
      (name, details) ∈ (exec env c (.createFunction name details)).1.udfs := by
  unfold exec
  rw [hr]
  simp [execStmt, doCreateFunction, hok, ask, foreign_reply hf]

/-- **C119 violated (DELETE).** For every Delta table whose location ends with an identifier: with a default store, DELETE
without a condition fails with "not implemented", and the table is empty. -/
theorem C119_delete_violated (env : Env) (c : Ctx) (hf : Foreign c.store) (r : TRef) (file : Text) (d own : Key) (uri : Text)
    (hn : Names env c r d uri) (ht : Twin env uri own) (l : List Commit) (hlog : loadLog c.objs d = some l) :
    (exec env c (.delete r none file)).2 = .error .notImplemented ∧
      scan (exec env c (.delete r none file)).1.objs d = some [] := by
  obtain ⟨db, hr, hl⟩ := hn
  obtain ⟨u, root, t, hu, hi, rfl⟩ := ht
  have hex : exec env c (.delete r none file) =
      ({ c with objs := commit c.objs d l ⟨env.now, [], live l⟩ }, .error .notImplemented) := by
    unfold exec
    rw [hr]
    simp [execStmt, doDelete, hi, lookup_try hl, hu, hlog, rewrite, writeRows, ask, foreign_reply hf]
  rw [hex]
  refine ⟨rfl, ?_⟩
  simp only
  unfold scan
  rw [loadLog_commit]
  simp only [live_snoc]
  have : (live l).filter (fun f => !(live l).contains f) = [] := by
    rw [List.filter_eq_nil_iff]
    intro f hf
    simp [hf]
  rw [this]
  rfl

/-! ### External Delta tables in the staging schema -/

/-- **C119 (DROP TABLE of an external table).** DROP TABLE of an external table, with any metastore, takes the name out of the
staging schema and leaves every object in place. -/
theorem C119_staging_drop (env : Env) (c : Ctx) (db : Meta.Database) (hr : reload env c = .ok db) (t : String) (ie : Bool) :
    (exec env c (.dropTable ⟨none, some "staging", t⟩ ie)).2 = .ok () ∧
      (exec env c (.dropTable ⟨none, some "staging", t⟩ ie)).1.objs = c.objs ∧
      ∀ t', t' ≠ t → (exec env c (.dropTable ⟨none, some "staging", t⟩ ie)).1.staging.find? (fun e => e.1 == t') =
        c.staging.find? (fun e => e.1 == t') := by
  unfold exec
  rw [hr]
  simp only [execStmt, doDropTable]
  split
  · simp
  · simp only [Option.getD_some, Option.getD_none, if_true, ne_eq, not_true_eq_false, if_false, true_and]
    intro t' ht
    induction c.staging with
    | nil => rfl
    | cons e l ih =>
      by_cases he : e.1 = t
      · rw [List.filter_cons_of_neg (by simp [he]), List.find?_cons_of_neg (by simpa [he] using fun h => ht h.symm)]
        exact ih
      · rw [List.filter_cons_of_pos (by simpa using he)]
        by_cases he' : e.1 = t'
        · rw [List.find?_cons_of_pos (by simpa using he'), List.find?_cons_of_pos (by simpa using he')]
        · rw [List.find?_cons_of_neg (by simpa using he'), List.find?_cons_of_neg (by simpa using he')]
          exact ih

/-- **C119 violated (DROP SCHEMA staging).** Also with the catalog database: if the first external table is a Delta
table, DROP SCHEMA staging deletes all its objects, and fails. -/
theorem C119_staging_violated (env : Env) (c : Ctx) (schemas : List (String × List (String × Text))) (known : Text → Bool)
    (hc : c.store = ownStaging schemas known) (db : Meta.Database) (hr : reload env c = .ok db) (t : String) (d : Key)
    (uri : Text) (rest : List (String × Prov)) (hs : c.staging = (t, .delta d uri) :: rest) (ie : Bool) :
    (exec env c (.dropSchema none "staging" ie)).2 = .error .tableUnknown ∧
      Emptied d c.objs (exec env c (.dropSchema none "staging" ie)).1.objs := by
  have hl : lookup env db c ⟨some c.db, some "staging", t⟩ = .ok (.delta d uri) := by
    simp [lookup, Meta.find, hs]
  have hex : exec env c (.dropSchema none "staging" ie) =
      ({ c with objs := c.objs.filter (fun e => !under d e.1) }, .error .tableUnknown) := by
    unfold exec
    rw [hr]
    simp [execStmt, doDropSchema, schemaTables, hs, dropLoop, deleteDelta, lookup_try hl, ask, hc, ownStaging]
  rw [hex]
  exact ⟨rfl, emptied_filter d c.objs⟩

/-- **C119 violated (INSERT into an external table).** With the catalog database, INSERT into an external Delta table that
is in the default store under an identifier which is not one of Seafowl's tables fails, and the rows are in. -/
theorem C119_staging_insert_violated (env : Env) (c : Ctx) (schemas : List (String × List (String × Text)))
    (known : Text → Bool) (hc : c.store = ownStaging schemas known) (r : TRef) (file : Text) (rows : List Nat)
    (d : Key) (uri u : Text) (root : Key) (t : Text) (hn : Names env c r d uri) (hu : uuidOf env uri = some u)
    (hi : env.internal = some (root, t)) (hk : known u = false) (l : List Commit)
    (hlog : loadLog c.objs (root.sub u) = some l) (hfile : file ≠ logName) (hrows : rows ≠ []) :
    (exec env c (.insert r file rows)).2 = .error .uuidUnknown ∧
      loadLog (exec env c (.insert r file rows)).1.objs (root.sub u) = some (l ++ [⟨env.now, [file], []⟩]) ∧
      fileRows (exec env c (.insert r file rows)).1.objs (root.sub u) file = some rows := by
  obtain ⟨db, hr, hl⟩ := hn
  have hlw : loadLog (c.objs.put ((root.sub u).sub file) (.data rows)) (root.sub u) = some l := by
    rw [← hlog]
    unfold loadLog
    rw [get_put, if_neg (by rw [sub_inj]; exact fun h => hfile h.symm)]
  have hex : exec env c (.insert r file rows) =
      ({ c with objs := commit (c.objs.put ((root.sub u).sub file) (.data rows)) (root.sub u) l ⟨env.now, [file], []⟩ },
        .error .uuidUnknown) := by
    unfold exec
    rw [hr]
    simp [execStmt, doInsert, hl, planTo, hu, hi, ownDir, writeRows, hrows, hlw, ask, hc, ownStaging, hk]
  rw [hex]
  refine ⟨rfl, loadLog_commit _ _ _ _, ?_⟩
  unfold fileRows
  rw [get_commit _ _ _ _ _ (by rw [Ne, sub_inj]; exact hfile), get_put]
  simp

/-! ### Time travel (C120) -/

/-- The rows of the table in a directory as they were at a time: after the commits that were made by then. -/
def asOf (w : Objs) (d : Key) (t : Int) : Option (List Nat) :=
  match loadLog w d with
  | none => none
  | some l => scanFiles w d (live (l.filter (fun c => decide (c.ts ≤ t))))

theorem upTo_filter (t : Int) (l : List Commit) (h : l.Pairwise (fun a b => a.ts ≤ b.ts)) :
    upTo t l = l.filter (fun c => decide (c.ts ≤ t)) := by
  unfold upTo
  induction l with
  | nil => rfl
  | cons c l ih =>
    have hp := List.pairwise_cons.mp h
    by_cases hc : c.ts ≤ t
    · rw [List.takeWhile_cons_of_pos (by simpa using hc), List.filter_cons_of_pos (by simpa using hc), ih hp.2]
    · rw [List.takeWhile_cons_of_neg (by simpa using hc), List.filter_cons_of_neg (by simpa using hc)]
      symm
      rw [List.filter_eq_nil_iff]
      intro x hx
      have := hp.1 x hx
      simp
      omega

/-- **C120 (part).** A query of a table at a time not before its first commit gives the rows that the table had
at that time, if the table is in the directory of the default store that its location's last part names.
Missing: the same for other tables (`C120_violated`). -/
theorem C120_own_partial (env : Env) (c : Ctx) (r : TRef) (t : Int) (d : Key) (uri : Text) (hn : Names env c r d uri)
    (ht : Twin env uri d) (x : Commit) (l : List Commit) (hlog : loadLog c.objs d = some (x :: l)) (hx : x.ts ≤ t)
    (hord : (x :: l).Pairwise (fun a b => a.ts ≤ b.ts)) (rows : List Nat) :
    queryAt env c r t = .ok rows ↔ asOf c.objs d t = some rows := by
  obtain ⟨db, hr, hl⟩ := hn
  obtain ⟨u, root, s, hu, hi, rfl⟩ := ht
  have hne : upTo t (x :: l) ≠ [] := by
    unfold upTo
    rw [List.takeWhile_cons_of_pos (by simpa using hx)]
    simp
  unfold queryAt asOf
  simp only [hr, hl, hu, hi, ownDir, hlog, if_neg hne]
  rw [upTo_filter t _ hord]
  split
  · next h => simp [h]
  · next h => simp [h]

/-- **C120 (refused).** A table whose location does not end with an identifier has no earlier versions for queries: the query fails. -/
theorem C120_refused (env : Env) (c : Ctx) (r : TRef) (t : Int) (d : Key) (uri : Text) (hn : Names env c r d uri)
    (hu : uuidOf env uri = none) : queryAt env c r t = .error .noUuid := by
  obtain ⟨db, hr, hl⟩ := hn
  unfold queryAt
  simp only [hr, hl, hu]

/-- **C120 (which directory).** Two tables whose locations end with the same identifier cannot be told apart by a query
of an earlier version, wherever they are. -/
theorem C120_violated_same (env : Env) (c : Ctx) (r r' : TRef) (t : Int) (d d' : Key) (uri uri' : Text)
    (hn : Names env c r d uri) (hn' : Names env c r' d' uri') (hu : uuidOf env uri = uuidOf env uri') :
    queryAt env c r t = queryAt env c r' t := by
  obtain ⟨db, hr, hl⟩ := hn
  obtain ⟨db', hr', hl'⟩ := hn'
  rw [hr] at hr'
  injection hr' with hdb
  subst hdb
  unfold queryAt
  simp only [hr, hl, hl', hu]

theorem segsGo_plain (t cur : Text) (h : '/' ∉ t) : segsGo t cur = if cur.reverse ++ t = [] then [] else [cur.reverse ++ t] := by
  induction t generalizing cur with
  | nil => simp [segsGo]
  | cons a t ih =>
    have ha : a ≠ '/' := by rintro rfl; exact h (by simp)
    simp only [segsGo, if_neg ha]
    rw [ih _ (fun h' => h (by simp [h']))]
    simp

theorem segsGo_last (a t cur : Text) (h : '/' ∉ t) (hne : t ≠ []) : (segsGo (a ++ '/' :: t) cur).getLast? = some t := by
  have ht : segsGo t [] = [t] := by rw [segsGo_plain t [] h]; simp [hne]
  induction a generalizing cur with
  | nil =>
    simp only [List.nil_append, segsGo, if_true, ht]
    split <;> simp
  | cons b a ih =>
    simp only [List.cons_append, segsGo]
    split
    · split
      · exact ih _
      · rw [List.getLast?_cons, ih]; rfl
    · exact ih _

/-- **C120 (own tables).** The tables of the catalog database, and all others that a metastore gives under a plain
identifier in the default store, are in the directory that the last part of their location names. -/
theorem C120_listed (env : Env) (u : Text) (root : Key) (t : Text) (hi : env.internal = some (root, t))
    (hu : env.uuid u = some u) (hs : '/' ∉ u) (hne : u ≠ []) :
    ∃ d uri, provOf env (.deltaDefault u) = .delta d uri ∧ Twin env uri d := by
  refine ⟨root.append (segs u), t ++ '/' :: u, ?_, u, root, t, ?_, hi, ?_⟩
  · simp [provOf, hi]
  · unfold uuidOf segs
    rw [segsGo_last _ _ _ hs hne]
    exact hu
  · unfold Key.append Key.sub segs
    rw [segsGo_plain u [] hs]
    simp [hne]

/-! ### A case -/

def exEnv : Env where
  urlOk _ := true
  storeOk _ _ := true
  icebergOk _ _ := true
  root _ _ := ⟨1, []⟩
  internal := some (⟨0, ["data".toList]⟩, "file:///data".toList)
  uuid t := if t = "u1".toList then some t else none
  udfOk _ := true
  now := 10
  iceInsert w _ _ := (w, .ok ())
  gc w := w

/-- A remote metastore with three tables: one in a bucket of its own under an identifier, one in the default store under
the same identifier, one in the bucket under a plain name. -/
def exListing : Listing where
  schemas := [⟨"public", [⟨"far", "x/u1".toList, some "s", 0⟩, ⟨"near", "u1".toList, none, 0⟩, ⟨"plain", "sales".toList, some "s", 0⟩]⟩]
  stores := [⟨"s", "s3://bucket".toList, []⟩]

def exObjs : Objs :=
  [(⟨1, ["x".toList, "u1".toList, logName]⟩, .log [⟨1, ["a".toList], []⟩, ⟨5, ["b".toList], ["a".toList]⟩]),
   (⟨1, ["x".toList, "u1".toList, "a".toList]⟩, .data [7]),
   (⟨1, ["x".toList, "u1".toList, "b".toList]⟩, .data [1, 2]),
   (⟨0, ["data".toList, "u1".toList, logName]⟩, .log [⟨2, ["a".toList], []⟩]),
   (⟨0, ["data".toList, "u1".toList, "a".toList]⟩, .data [100]),
   (⟨1, ["sales".toList, logName]⟩, .log [⟨3, ["a".toList], []⟩]),
   (⟨1, ["sales".toList, "a".toList]⟩, .data [50])]

def exCtx : Ctx where
  store := external (fun _ => some exListing)
  staging := []
  udfs := []
  db := "default"
  sch := "public"
  objs := exObjs

deriving instance DecidableEq for Except

/-- **C120 violated.** A query of an earlier version of one table gives the rows of another. -/
theorem C120_violated : query exEnv exCtx ⟨none, none, "far"⟩ = .ok [1, 2] ∧
    queryAt exEnv exCtx ⟨none, none, "far"⟩ 6 = .ok [100] ∧
    asOf exCtx.objs ⟨1, ["x".toList, "u1".toList]⟩ 6 = some [1, 2] := by
  refine ⟨?_, ?_, ?_⟩ <;> decide +kernel

/-- The tables open, and the frame and the violations apply to them. -/
example : query exEnv exCtx ⟨none, none, "near"⟩ = .ok [100] ∧ query exEnv exCtx ⟨none, none, "plain"⟩ = .ok [50] := by
  constructor <;> decide +kernel

/-- So do the tables of a list sent with the query; without a metastore every query fails. -/
example : query exEnv { exCtx with store := memory exListing } ⟨none, none, "plain"⟩ = .ok [50] ∧
    query exEnv { exCtx with store := memory exListing } ⟨none, none, "far"⟩ = .ok [1, 2] ∧
    query exEnv { exCtx with store := empty } ⟨none, none, "plain"⟩ = .error (.list .noInlineMetastore) := by
  refine ⟨?_, ?_, ?_⟩ <;> decide +kernel

/-- DROP TABLE: an error, and the table is gone. -/
example : (exec exEnv exCtx (.dropTable ⟨none, none, "plain"⟩ false)).2 = .error .notImplemented ∧
    query exEnv (exec exEnv exCtx (.dropTable ⟨none, none, "plain"⟩ false)).1 ⟨none, none, "plain"⟩ = .error .load ∧
    query exEnv (exec exEnv exCtx (.dropTable ⟨none, none, "plain"⟩ false)).1 ⟨none, none, "far"⟩ = .ok [1, 2] := by
  refine ⟨?_, ?_, ?_⟩ <;> decide +kernel

/-- INSERT into `far`: an error, and the rows are in `near`. -/
example : (exec exEnv exCtx (.insert ⟨none, none, "far"⟩ "n".toList [8])).2 = .error .notImplemented ∧
    query exEnv (exec exEnv exCtx (.insert ⟨none, none, "far"⟩ "n".toList [8])).1 ⟨none, none, "far"⟩ = .ok [1, 2] ∧
    query exEnv (exec exEnv exCtx (.insert ⟨none, none, "far"⟩ "n".toList [8])).1 ⟨none, none, "near"⟩ = .ok [100, 8] := by
  refine ⟨?_, ?_, ?_⟩ <;> decide +kernel

/-- UPDATE of `far`: an error, and `far` cannot be read any more. -/
example : (exec exEnv exCtx (.update ⟨none, none, "far"⟩ (· == 1) (· + 1) "n".toList)).2 = .error .notImplemented ∧
    query exEnv (exec exEnv exCtx (.update ⟨none, none, "far"⟩ (· == 1) (· + 1) "n".toList)).1 ⟨none, none, "far"⟩ =
      .error .scan := by
  refine ⟨?_, ?_⟩ <;> decide +kernel

/-- INSERT into and DELETE from `plain`: an error, and nothing has changed. -/
example : exec exEnv exCtx (.insert ⟨none, none, "plain"⟩ "n".toList [8]) = (exCtx, .error .noUuid) := by rfl

/-- VACUUM of `far`: the file of the first version is gone, the rows are the same. -/
example : (exec exEnv exCtx (.vacuum ⟨none, none, "far"⟩)).2 = .error .notImplemented ∧
    (exec exEnv exCtx (.vacuum ⟨none, none, "far"⟩)).1.objs.get ⟨1, ["x".toList, "u1".toList, "a".toList]⟩ = none ∧
    query exEnv (exec exEnv exCtx (.vacuum ⟨none, none, "far"⟩)).1 ⟨none, none, "far"⟩ = .ok [1, 2] := by
  refine ⟨?_, ?_, ?_⟩ <;> decide +kernel

/-- The version of `near` at time 6, by `C120_own_partial`. -/
example : queryAt exEnv exCtx ⟨none, none, "near"⟩ 6 = .ok [100] := by decide +kernel

/-- DROP SCHEMA: the first table listed is gone, and the statement fails. -/
example : (exec exEnv exCtx (.dropSchema none "public" false)).2 = .error .notImplemented ∧
    (exec exEnv exCtx (.dropSchema none "public" false)).1.objs.length < exCtx.objs.length := by
  refine ⟨?_, ?_⟩ <;> decide +kernel

/-- An external Delta table in the staging schema, with the catalog database: DROP TABLE keeps its objects, DROP SCHEMA
deletes them. -/
def exStaging : Ctx :=
  { exCtx with store := ownStaging [] (fun _ => false), staging := [("e", .delta ⟨1, ["sales".toList]⟩ "s3://bucket/sales".toList)] }

example : (exec exEnv exStaging (.dropTable ⟨none, some "staging", "e"⟩ false)).1.objs = exObjs ∧
    (exec exEnv exStaging (.dropSchema none "staging" false)).2 = .error .tableUnknown ∧
    (exec exEnv exStaging (.dropSchema none "staging" false)).1.objs.length + 2 = exObjs.length := by
  refine ⟨?_, ?_, ?_⟩ <;> decide +kernel

/-- The directory of the log is the one that every Delta reader looks for. -/
example : logName = ['_', 'd', 'e', 'l', 't', 'a', '_', 'l', 'o', 'g'] := rfl

end Seafowl.Foreign
