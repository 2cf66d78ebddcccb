/-
C39 (whole requests), C40 (GET is read-only), C41 (POST gating), C43 (statuses).
-/
import Verif.Frontend.AuthProps

set_option linter.unusedSimpArgs false

namespace Seafowl.Front

/-! ### Specification -/

/-- The `Authorization` header of a request. -/
def Request.header : Request → Option Str
  | .get r => r.header
  | .post h _ => h
  | .upload h _ => h
  | .health => none

/-- A statement that hides a write below a reading keyword: `SELECT … INTO` or
`EXPLAIN ANALYZE`, at any depth of EXPLAIN. -/
def Hidden : Stmt → Prop
  | .query _ into => into ≠ none
  | .explain a s => a = true ∨ Hidden s
  | _ => False

/-- Statements that only look at data. -/
def OnlyReads : Stmt → Prop
  | .query _ into => into = none
  | .explain a _ => a = false
  | .showTables => True
  | .show => True
  | _ => False

/-! ### GET -/

theorem readonly_physical (E : Eng) (db : Db) (p : LPlan) (h : isReadOnly p = true) :
    ∃ ph, physical E db p = (db, .ok ph) ∧ ∀ q, ph ≠ .analyze q := by
  cases p <;> simp [isReadOnly] at h <;> simp [physical]

theorem execute_readonly (E : Eng) (db : Db) (ph : Phys) (h : ∀ q, ph ≠ .analyze q) :
    (execute E db ph).1 = db := by
  cases ph <;> simp [execute] at h ⊢

theorem runGet_db (E : Eng) (db : Db) (inm : Option Str) (sql : Str) :
    (runGet E db inm sql).1 = db := by
  unfold runGet
  cases hp : planText E db sql with
  | error e => rfl
  | ok p =>
    simp only
    by_cases hr : isReadOnly p = false
    · simp [hr]
    · rw [if_neg hr]
      have hr' : isReadOnly p = true := by simpa using hr
      by_cases he : inm = some (planToEtag E p)
      · rw [if_pos he]
      · rw [if_neg he]
        obtain ⟨ph, h1, h2⟩ := readonly_physical E db p hr'
        rw [h1]
        exact execute_readonly E db ph h2

/-- **C40 (nothing is written).** The GET endpoint leaves the database as it was, whatever the
path, header, body, token, policy and whatever the statement's writing would have done. -/
theorem C40_unchanged (E : Eng) (pol : Policy) (db : Db) (r : GetReq) :
    (handleGet E pol db r).1 = db := by
  unfold handleGet
  cases getAuthz E pol r.header with
  | error e => rfl
  | ok u =>
    simp only
    cases getQuery E r with
    | error e => rfl
    | ok q => exact runGet_db E db r.ifNoneMatch q

/-- **C40 (only reading statements are answered).** If GET answers with data or with
`304 Not Modified`, the reading policy allowed it, the request named exactly one statement, and
that statement only reads. -/
theorem C40_only_reads (E : Eng) (pol : Policy) (db : Db) (r : GetReq)
    (h : (handleGet E pol db r).2.status = 200 ∨ (handleGet E pol db r).2.status = 304) :
    MayRead E.hash pol r.header ∧ pol.read ≠ .off ∧
    ∃ q s, getQuery E r = .ok q ∧ E.parse q = .ok [s] ∧ OnlyReads s := by
  have hst : ∀ e : ApiError, (errResp e).status ≠ 200 ∧ (errResp e).status ≠ 304 := by
    intro e; cases e <;> simp [errResp, ApiError.status]
  unfold handleGet at h
  cases ha : getAuthz E pol r.header with
  | error e => rw [ha] at h; exact absurd h (by simpa using hst e)
  | ok u =>
    rw [ha] at h
    simp only at h
    have hread : MayRead E.hash pol r.header ∧ pol.read ≠ .off := by
      unfold getAuthz at ha
      cases hpr : headerToPrincipal E.hash r.header pol with
      | error e => rw [hpr] at ha; simp at ha
      | ok pr =>
        rw [hpr] at ha
        simp only at ha
        split at ha
        · simp at ha
        · rename_i hno
          split at ha
          · rename_i hc
            exact ⟨(C39_read_iff _ _ _ _ hpr).1 hc, hno⟩
          · simp at ha
    refine ⟨hread.1, hread.2, ?_⟩
    cases hq : getQuery E r with
    | error e => rw [hq] at h; exact absurd h (by simpa using hst e)
    | ok q =>
      rw [hq] at h
      simp only at h
      unfold runGet at h
      cases hp : planText E db q with
      | error e => rw [hp] at h; exact absurd h (by simpa using hst _)
      | ok p =>
        rw [hp] at h
        simp only at h
        by_cases hr : isReadOnly p = false
        · rw [if_pos hr] at h; exact absurd h (by simpa using hst _)
        · unfold planText at hp
          cases hps : E.parse q with
          | error e => rw [hps] at hp; simp at hp
          | ok l =>
            rw [hps] at hp
            match l, hps, hp with
            | [s], hps, hp =>
              refine ⟨q, s, rfl, hps, ?_⟩
              simp only at hp
              cases s with
              | query q' into =>
                cases into with
                | none => rfl
                | some n =>
                  simp only [planStmt] at hp
                  cases hq' : planQ db q' <;> rw [hq'] at hp <;> simp [Except.map] at hp
                  subst hp
                  exact absurd rfl hr
              | explain a s' =>
                cases a with
                | false => rfl
                | true =>
                  exfalso
                  unfold planStmt at hp
                  split at hp
                  · simp at hp
                  · simp at hp
                  · split at hp
                    · simp at hp; subst hp; exact hr rfl
                    · simp at hp
              | showTables => trivial
              | «show» => trivial
              | dml n =>
                simp only [planStmt] at hp
                cases hc : E.check db n <;> rw [hc] at hp <;> simp [Except.map] at hp
                subst hp; exact absurd rfl hr
              | ddl n =>
                simp only [planStmt] at hp
                cases hc : E.check db n <;> rw [hc] at hp <;> simp [Except.map] at hp
                subst hp; exact absurd rfl hr
              | ext n =>
                simp only [planStmt] at hp
                cases hc : E.check db n <;> rw [hc] at hp <;> simp [Except.map] at hp
                subst hp; exact absurd rfl hr
              | copy n =>
                simp only [planStmt] at hp
                cases hc : E.check db n <;> rw [hc] at hp <;> simp [Except.map] at hp
                subst hp; exact absurd rfl hr
              | unsupported => simp [planStmt] at hp
            | [], hps, hp => simp at hp
            | _ :: _ :: _, hps, hp => simp at hp

/-- **C40 (hash).** When the query comes in the header or body, it is executed only if the path,
up to the first dot, is the hash of the decoded query. -/
theorem C40_hash (E : Eng) (pol : Policy) (db : Db) (r : GetReq) (raw : Str)
    (hraw : r.raw = some raw)
    (h : (handleGet E pol db r).2.status = 200 ∨ (handleGet E pol db r).2.status = 304) :
    ∃ q rest, E.decode raw = some q ∧ getQuery E r = .ok q ∧
      (r.path = E.hash q ++ rest) ∧ (rest = [] ∨ ∃ t, rest = '.' :: t) ∧ '.' ∉ E.hash q := by
  obtain ⟨-, -, q, s, hq, -, -⟩ := C40_only_reads E pol db r h
  have hq0 := hq
  unfold getQuery at hq
  rw [hraw] at hq
  simp only at hq
  split at hq
  · simp at hq
  · rename_i q' hd
    split at hq
    · simp at hq
    · rename_i hh
      have hh' : upToDot r.path = E.hash q' := Classical.not_not.1 hh
      injection hq with hq
      subst hq
      have hsplit : r.path = r.path.takeWhile (· != '.') ++ r.path.dropWhile (· != '.') :=
        List.takeWhile_append_dropWhile.symm
      refine ⟨q', r.path.dropWhile (· != '.'), hd, hq0, ?_, ?_, ?_⟩
      · rw [← hh']; exact hsplit
      · cases hdw : r.path.dropWhile (· != '.') with
        | nil => exact .inl rfl
        | cons c t =>
          right
          have := List.head?_dropWhile_not (p := (· != '.')) r.path
          rw [hdw] at this
          simp at this
          exact ⟨t, by rw [this]⟩
      · rw [← hh']
        intro hmem
        have := List.all_takeWhile (p := (· != '.')) (l := r.path)
        rw [List.all_eq_true] at this
        have := this '.' hmem
        simp at this

/-- A small engine for the examples: three texts it can parse, writing statement `n` adds a table
named by `n` letters, except statement 9, which fails. -/
def demoEng : Eng where
  hash := fun t => '#' :: t
  hashBytes := fun b => b.map fun n => Char.ofNat (48 + n % 10)
  decode := some
  parse := fun t =>
    if t = ['s'] then .ok [.query (.table ['a']) none]
    else if t = ['w'] then .ok [.ddl 1]
    else if t = ['i'] then .ok [.query (.table ['a']) (some ['b'])]
    else if t = ['x'] then .ok [.explain true (.dml 1)]
    else if t = ['m'] then .ok [.ddl 1, .query (.table ['a']) none]
    else if t = ['f'] then .ok [.ddl 1, .dml 9, .ddl 2]
    else if t = ['r'] then .ok [.query (.table ['a']) none, .ddl 1]
    else .error []
  check := fun _ _ => .ok ()
  apply := fun w db =>
    match w with
    | .stmt 9 => (db, some ['e'])
    | .stmt n => ({ db with tables := fun t =>
        if t = List.replicate n 'n' then some .other else db.tables t }, none)
    | .ctas t _ => ({ db with tables := fun t' => if t' = t then some .other else db.tables t' }, none)
    | .upload _ t _ => ({ db with tables := fun t' => if t' = t then some .other else db.tables t' }, none)
  dfRun := fun _ db => ({ db with others := fun _ => [[7]] }, none)
  stream := fun db p => [.ok (evalPlan db p), .error ['b']]

/-- A database with one table `a`. -/
def demoDb : Db where
  tables := fun t => if t = ['a'] then some (.delta [1, 2] 3) else none
  content := fun _ _ => [[1], [2]]
  others := fun _ => []
  fn := fun _ r => r
  fn2 := fun _ r _ => r

/-- GET answers a reading query and refuses a writing one, even from the most trusted user. -/
example :
    let ask := fun (q : Str) => handleGet demoEng ⟨.any, .any⟩ demoDb ⟨none, q, none, none⟩
    (ask ['s']).2.status = 200 ∧ (ask ['w']).2.status = 405 ∧ (ask ['i']).2.status = 405 ∧
    (ask ['x']).2.status = 405 ∧ (ask ['m']).2.status = 400 ∧
    (handleGet demoEng ⟨.any, .any⟩ demoDb ⟨none, ['#', 's', '.', 'c'], some ['s'], none⟩).2.status
      = 200 ∧
    (handleGet demoEng ⟨.any, .any⟩ demoDb ⟨none, ['#', 'w'], some ['s'], none⟩).2.status = 400 ∧
    (handleGet demoEng ⟨.off, .any⟩ demoDb ⟨none, ['s'], none, none⟩).2.status = 405 := by
  refine ⟨?_, ?_, ?_, ?_, ?_, ?_, ?_, ?_⟩ <;> rfl

/-! ### POST -/

/-- One statement: plan it and, if it writes, run it. -/
def oneStmt (E : Eng) (db : Db) (s : Stmt) : Db × Option Str :=
  match planStmt E db s with
  | .error e => (db, some e)
  | .ok p =>
    match physical E db p with
    | (db', .error e) => (db', some e)
    | (db', .ok _) => (db', none)

/-- Statements run one after the other, each on the database its predecessors left; the first
failing one ends the run (specification). -/
inductive RunsTo (E : Eng) : Db → List Stmt → Db → Option Str → Prop
  | done (db) : RunsTo E db [] db none
  | fail {db db' s rest e} : oneStmt E db s = (db', some e) → RunsTo E db (s :: rest) db' (some e)
  | step {db db' db'' s rest r} : oneStmt E db s = (db', none) → RunsTo E db' rest db'' r →
      RunsTo E db (s :: rest) db'' r

theorem runStmts_runsTo (E : Eng) : ∀ (stmts : List Stmt) (db : Db) (last : Option Phys),
    (∀ db' e, runStmts E db stmts last = (db', .error e) → RunsTo E db stmts db' (some e)) ∧
    (∀ db' ph, runStmts E db stmts last = (db', .ok ph) → RunsTo E db stmts db' none) := by
  intro stmts
  induction stmts with
  | nil =>
    intro db last
    constructor
    · intro db' e h; simp [runStmts] at h
    · intro db' ph h; simp [runStmts] at h; rw [h.1]; exact .done _
  | cons s rest ih =>
    intro db last
    unfold runStmts
    cases hp : planStmt E db s with
    | error e =>
      have h1 : oneStmt E db s = (db, some e) := by unfold oneStmt; rw [hp]
      constructor
      · intro db' e' h; simp at h; rw [← h.1, ← h.2]; exact .fail h1
      · intro db' ph h; simp at h
    | ok p =>
      cases hy : physical E db p with
      | mk db1 r =>
        cases r with
        | error e =>
          have h1 : oneStmt E db s = (db1, some e) := by
            unfold oneStmt; rw [hp]; simp only [hy]
          simp only [hy]
          constructor
          · intro db' e' h; simp at h; rw [← h.1, ← h.2]; exact .fail h1
          · intro db' ph h; simp at h
        | ok ph =>
          have h1 : oneStmt E db s = (db1, none) := by
            unfold oneStmt; rw [hp]; simp only [hy]
          simp only [hy]
          exact ⟨fun db' e h => .step h1 ((ih db1 _).1 _ _ h),
            fun db' ph' h => .step h1 ((ih db1 _).2 _ _ h)⟩

/-- **C41 (order, errors stop).** A POST that passes the gate runs its statements in order, each on
the result of the one before; if one fails the answer is that error (400) and nothing after it
runs; if all succeed the output of the last one is streamed. -/
theorem C41_in_order (E : Eng) (pr : Principal) (pol : Policy) (db : Db) (sql : Str)
    (stmts : List Stmt) (hs : E.parse sql = .ok stmts) (hg : postGate pr pol stmts = .ok ()) :
    ∃ db' r, RunsTo E db stmts db' r ∧
      (∀ e, r = some e → runPost E pr pol db sql = (db', errResp (.dataFusion e))) ∧
      (r = none → ∃ ph, runPost E pr pol db sql = execute E db' ph) := by
  have hne : stmts ≠ [] := by
    intro h; subst h; simp [postGate] at hg
  have hlast : ∀ (l : List Stmt) (db : Db) (last : Option Phys) (db' : Db),
      runStmts E db l last = (db', .ok none) → last = none ∧ l = [] := by
    intro l
    induction l with
    | nil => intro db last db' h; simp [runStmts] at h; exact ⟨h.2, rfl⟩
    | cons s rest ih =>
      intro db last db' h
      unfold runStmts at h
      cases hp : planStmt E db s with
      | error e => rw [hp] at h; simp at h
      | ok p =>
        rw [hp] at h
        simp only at h
        cases hy : physical E db p with
        | mk db1 r =>
          cases r with
          | error e => simp [hy] at h
          | ok ph => simp only [hy] at h; exact absurd (ih _ _ _ h).1 (by simp)
  have hspec := runStmts_runsTo E stmts db none
  unfold runPost
  rw [hs]
  simp only [hg]
  cases hr : runStmts E db stmts none with
  | mk db1 r =>
    cases r with
    | error e =>
      refine ⟨db1, some e, hspec.1 _ _ hr, ?_, by simp⟩
      intro e' he; simp at he; subst he; rfl
    | ok o =>
      cases o with
      | none => exact absurd (hlast _ _ _ _ hr).2 hne
      | some ph => exact ⟨db1, none, hspec.2 _ _ hr, by simp, fun _ => ⟨ph, rfl⟩⟩

theorem gate_ok {pr : Principal} {pol : Policy} {stmts : List Stmt}
    (hg : postGate pr pol stmts = .ok ()) :
    stmts ≠ [] ∧ canPerform pr (postAction stmts) pol = true ∧
    ¬ (stmts.countP isStmtReadOnly > 1 ∨ (stmts.countP isStmtReadOnly = 1 ∧
      stmts.getLast?.map isStmtReadOnly = some false)) := by
  unfold postGate at hg
  by_cases h1 : stmts.isEmpty = true
  · simp [h1] at hg
  · rw [if_neg h1] at hg
    simp only at hg
    by_cases h2 : canPerform pr (postAction stmts) pol = false
    · rw [if_pos h2] at hg; simp at hg
    · rw [if_neg h2] at hg
      refine ⟨by simpa using h1, by simpa using h2, fun h3 => ?_⟩
      rw [if_pos h3] at hg
      simp at hg

/-- **C41 (a read statement comes alone, at the end).** What passes the gate is a list of
statements none of which is a reading one, except possibly the last. -/
theorem C41_read_last (pr : Principal) (pol : Policy) (stmts : List Stmt)
    (hg : postGate pr pol stmts = .ok ()) :
    ∃ init last, stmts = init ++ [last] ∧
      ∀ s ∈ init, ∀ q i a t, s ≠ .query q i ∧ s ≠ .explain a t ∧ s ≠ .showTables := by
  have hne : stmts ≠ [] := by intro h; subst h; simp [postGate] at hg
  refine ⟨stmts.dropLast, stmts.getLast hne, (List.dropLast_concat_getLast hne).symm, ?_⟩
  have hsplit := (List.dropLast_concat_getLast hne).symm
  have hgl : stmts.getLast? = some (stmts.getLast hne) := List.getLast?_eq_some_getLast hne
  obtain ⟨-, -, hcond⟩ := gate_ok hg
  rw [hgl] at hcond
  simp only [Option.map_some, Option.some.injEq, not_or, not_and] at hcond
  have hcount : stmts.countP isStmtReadOnly
      = stmts.dropLast.countP isStmtReadOnly + (if isStmtReadOnly (stmts.getLast hne) then 1 else 0) := by
    conv => lhs; rw [hsplit]
    rw [List.countP_append]
    simp
  have hz : stmts.dropLast.countP isStmtReadOnly = 0 := by
    obtain ⟨h1, h2⟩ := hcond
    rw [hcount] at h1 h2
    split at h1 <;> rename_i hl
    · omega
    · simp only [hl] at h2
      simp at h2
      simp at h1
      rcases Nat.eq_zero_or_pos (stmts.dropLast.countP isStmtReadOnly) with h | h
      · exact h
      · omega
  intro s hs q i a t
  have hf : isStmtReadOnly s ≠ true := List.countP_eq_zero.1 hz s hs
  refine ⟨?_, ?_, ?_⟩ <;> rintro rfl <;> simp [isStmtReadOnly] at hf

/-- **C41 (permission).** If any statement of the request is a DML, DDL, COPY or extension
statement and the request may not write, the answer is 403 and nothing is executed. -/
theorem C41_gate (E : Eng) (pol : Policy) (db : Db) (header : Option Str) (sql : Str)
    (stmts : List Stmt) (pr : Principal) (hs : E.parse sql = .ok stmts)
    (hp : headerToPrincipal E.hash header pol = .ok pr)
    (hw : ∃ s ∈ stmts, ∃ n, s = .dml n ∨ s = .ddl n ∨ s = .ext n ∨ s = .copy n)
    (hno : ¬ MayWrite E.hash pol header) :
    (handlePost E pol db header sql).1 = db ∧ (handlePost E pol db header sql).2.status = 403 := by
  obtain ⟨s, hmem, n, hk⟩ := hw
  have hrs : isStmtReadOnly s = false := by rcases hk with h | h | h | h <;> subst h <;> rfl
  have hne : stmts ≠ [] := by rintro rfl; simp at hmem
  have hlen : stmts.countP isStmtReadOnly ≠ stmts.length := by
    intro h
    have := List.countP_eq_length.1 h s hmem
    rw [hrs] at this
    exact absurd this (by simp)
  have hc : canPerform pr .write pol = false := by
    cases h : canPerform pr .write pol with
    | false => rfl
    | true => exact absurd ((C39_write_iff _ _ _ _ hp).1 h) hno
  have hg : postGate pr pol stmts = .error .writeForbidden := by
    unfold postGate
    rw [if_neg (by simpa using hne)]
    simp only
    have ha : postAction stmts = .write := if_neg hlen
    rw [ha, if_pos hc]
  unfold handlePost
  rw [hp]
  simp only
  unfold runPost
  rw [hs]
  simp only [hg]
  exact ⟨trivial, rfl⟩

/-- **C41 violated.** `SELECT … INTO b` counts as a reading statement: a request that may only read
(write access is switched off) creates the table through POST. -/
theorem C41_violated_select_into :
    ¬ MayWrite demoEng.hash ⟨.any, .off⟩ none ∧
    ((handlePost demoEng ⟨.any, .off⟩ demoDb none ['i']).1.tables ['b']).isSome = true ∧
    (demoDb.tables ['b']).isSome = false := by
  refine ⟨?_, rfl, rfl⟩
  rintro (h | ⟨t, sha, -, h, -⟩) <;> simp at h

/-- **C41 violated.** So does `EXPLAIN ANALYZE INSERT …`, which DataFusion itself runs. -/
theorem C41_violated_explain_analyze :
    ¬ MayWrite demoEng.hash ⟨.any, .off⟩ none ∧
    (handlePost demoEng ⟨.any, .off⟩ demoDb none ['x']).1.others [] ≠ demoDb.others [] := by
  refine ⟨?_, ?_⟩
  · rintro (h | ⟨t, sha, -, h, -⟩) <;> simp at h
  · intro h
    have : ([[7]] : Rel) = [] := h
    simp at this

/-- **C41 violated, always.** Whoever may read can run, through POST, any `SELECT … INTO` and any write below
`EXPLAIN ANALYZE`, whatever the policy says about writing: the database afterwards is what the write makes of it. -/
theorem C41_readers_write (E : Eng) (pol : Policy) (db : Db) (header : Option Str) (sql : Str) (pr : Principal)
    (hp : headerToPrincipal E.hash header pol = .ok pr) (hr : MayRead E.hash pol header) :
    (∀ q n p, E.parse sql = .ok [.query q (some n)] → planQ db q = .ok p →
      (handlePost E pol db header sql).1 = (E.apply (.ctas n p) db).1) ∧
    (∀ s p, E.parse sql = .ok [.explain true s] → (∀ k, s ≠ .ext k ∧ s ≠ .copy k) → planStmt E db s = .ok p →
      (handlePost E pol db header sql).1 = (E.dfRun p db).1) := by
  have hc : canPerform pr .read pol = true := (C39_read_iff _ _ _ _ hp).2 hr
  have hg : ∀ s, isStmtReadOnly s = true → postGate pr pol [s] = .ok () := by
    intro s hs
    simp [postGate, postAction, hs, hc]
  refine ⟨?_, ?_⟩
  · intro q n p hs hq
    unfold handlePost runPost
    simp only [hp, hs, hg _ (show isStmtReadOnly (.query q (some n)) = true from rfl), runStmts, planStmt, hq, Except.map, physical]
    cases ha : E.apply (.ctas n p) db with
    | mk db' o => cases o <;> rfl
  · intro s p hs hne hq
    have hplan : planStmt E db (.explain true s) = .ok (.analyze p) := by
      cases s with
      | ext k => exact absurd rfl (hne k).1
      | copy k => exact absurd rfl (hne k).2
      | unsupported => simp [planStmt] at hq
      | showTables => simp only [planStmt] at hq ⊢; injection hq with hq; rw [← hq]; rfl
      | «show» => simp only [planStmt] at hq ⊢; injection hq with hq; rw [← hq]; rfl
      | _ => simp only [planStmt] at hq ⊢; rw [hq]; rfl
    unfold handlePost runPost
    simp only [hp, hs, hg _ (show isStmtReadOnly (.explain true s) = true from rfl), runStmts, hplan, physical, execute]
    cases ha : E.dfRun p db with
    | mk db' o => cases o <;> rfl

/-- The two requests of the theorems above meet its hypotheses. -/
example : MayRead demoEng.hash ⟨.any, .off⟩ none ∧ (∃ pr, headerToPrincipal demoEng.hash none ⟨.any, .off⟩ = .ok pr) ∧
    ((∃ q n, demoEng.parse ['i'] = .ok [.query q (some n)]) ∧ ∃ s, demoEng.parse ['x'] = .ok [.explain true s] ∧
      ∀ k, s ≠ .ext k ∧ s ≠ .copy k) :=
  ⟨Or.inl rfl, ⟨_, rfl⟩, ⟨_, _, rfl⟩, _, rfl, by simp⟩

/-- The gate at work: a write followed by a read runs both; the error of the second statement of
three leaves the first one's effect and stops the third; a read in front is refused. -/
example :
    let post := fun (pol : Policy) (q : Str) => handlePost demoEng pol demoDb none q
    (post ⟨.any, .any⟩ ['m']).2.status = 200 ∧
    ((post ⟨.any, .any⟩ ['m']).1.tables ['n']).isSome = true ∧
    (post ⟨.any, .off⟩ ['m']).2.status = 403 ∧
    (post ⟨.any, .any⟩ ['f']).2.status = 400 ∧
    ((post ⟨.any, .any⟩ ['f']).1.tables ['n']).isSome = true ∧
    ((post ⟨.any, .any⟩ ['f']).1.tables ['n', 'n']).isSome = false ∧
    (post ⟨.any, .any⟩ ['r']).2.status = 400 ∧
    ((post ⟨.any, .any⟩ ['r']).1.tables ['n']).isSome = false := by
  refine ⟨?_, ?_, ?_, ?_, ?_, ?_, ?_, ?_⟩ <;> rfl

/-! ### C39 for whole requests -/

theorem hidden_free_plan (E : Eng) (db : Db) (s : Stmt) (p : LPlan) (hr : isStmtReadOnly s = true)
    (hh : ¬ Hidden s) (hp : planStmt E db s = .ok p) : isReadOnly p = true := by
  cases s with
  | query q into =>
    have : into = none := by simpa [Hidden] using hh
    subst this
    simp only [planStmt] at hp
    cases hq : planQ db q <;> rw [hq] at hp <;> simp [Except.map] at hp
    subst hp; rfl
  | explain a s' =>
    have ha : a = false := by
      cases a with
      | false => rfl
      | true => exact absurd (.inl rfl) hh
    subst ha
    unfold planStmt at hp
    split at hp
    · simp at hp
    · simp at hp
    · split at hp
      · simp at hp; subst hp; rfl
      · simp at hp
  | showTables => simp [planStmt] at hp; subst hp; rfl
  | «show» => simp [isStmtReadOnly] at hr
  | dml n => simp [isStmtReadOnly] at hr
  | ddl n => simp [isStmtReadOnly] at hr
  | ext n => simp [isStmtReadOnly] at hr
  | copy n => simp [isStmtReadOnly] at hr
  | unsupported => simp [isStmtReadOnly] at hr

theorem gate_read_single {pr : Principal} {pol : Policy} {stmts : List Stmt}
    (hg : postGate pr pol stmts = .ok ()) (hc : canPerform pr .write pol = false) :
    ∃ s, stmts = [s] ∧ isStmtReadOnly s = true := by
  obtain ⟨hne, hp, hcond⟩ := gate_ok hg
  have hl : stmts.countP isStmtReadOnly = stmts.length := by
    refine Classical.byContradiction fun h => ?_
    have ha : postAction stmts = .write := if_neg h
    rw [ha, hc] at hp
    exact absurd hp (by simp)
  rw [hl] at hcond
  match stmts, hne, hl, hcond with
  | [], hne, _, _ => simp at hne
  | [s], _, hl, _ => exact ⟨s, rfl, List.countP_eq_length.1 hl s (by simp)⟩
  | _ :: _ :: _, _, _, hcond => simp at hcond

/-- **C39 (writing).** If a request changes the database, the policy lets anyone write or the
request carries the write password.  Partial: holds for POST requests none of whose statements is a
`SELECT … INTO` or an `EXPLAIN ANALYZE` (see `C41_violated_select_into`); GET, upload and health
checks need no such restriction. -/
theorem C39_write_partial (E : Eng) (pol : Policy) (db : Db) (r : Request)
    (hplain : ∀ h sql stmts, r = .post h sql → E.parse sql = .ok stmts → ∀ s ∈ stmts, ¬ Hidden s)
    (hno : ¬ MayWrite E.hash pol r.header) : (handle E pol db r).1 = db := by
  cases r with
  | get r => exact C40_unchanged E pol db r
  | health => rfl
  | upload h f =>
    simp only [handle, Request.header] at hno ⊢
    unfold handleUpload
    cases hp : headerToPrincipal E.hash h pol with
    | error e => rfl
    | ok pr =>
      have hc : canPerform pr .write pol = false := by
        cases h' : canPerform pr .write pol with
        | false => rfl
        | true => exact absurd ((C39_write_iff _ _ _ _ hp).1 h') hno
      simp only
      rw [if_pos hc]
  | post h sql =>
    simp only [handle, Request.header] at hno ⊢
    unfold handlePost
    cases hp : headerToPrincipal E.hash h pol with
    | error e => rfl
    | ok pr =>
      have hc : canPerform pr .write pol = false := by
        cases h' : canPerform pr .write pol with
        | false => rfl
        | true => exact absurd ((C39_write_iff _ _ _ _ hp).1 h') hno
      simp only
      unfold runPost
      cases hs : E.parse sql with
      | error e => rfl
      | ok stmts =>
        simp only
        cases hg : postGate pr pol stmts with
        | error e => rfl
        | ok u =>
          obtain ⟨s, rfl, hrs⟩ := gate_read_single hg hc
          have hh : ¬ Hidden s := hplain h sql [s] rfl hs s (by simp)
          simp only [runStmts]
          cases hpl : planStmt E db s with
          | error e => rfl
          | ok p =>
            obtain ⟨ph, h1, h2⟩ := readonly_physical E db p (hidden_free_plan E db s p hrs hh hpl)
            simp only [h1]
            exact execute_readonly E db ph h2

/-- **C39 (reading).** A query answered with data needs the permission to read — or the permission
to write: a POST whose statements do not all read is checked for writing only. -/
theorem C39_read_partial (E : Eng) (pol : Policy) (db : Db) (r : Request) (hq : r ≠ .health)
    (h : (handle E pol db r).2.body ≠ []) :
    MayRead E.hash pol r.header ∨ MayWrite E.hash pol r.header := by
  cases r with
  | health => exact absurd rfl hq
  | get r =>
    refine .inl ?_
    refine (C40_only_reads E pol db r ?_).1
    refine Classical.byContradiction fun hst => h ?_
    have hexec : ∀ db ph, (execute E db ph).2.status = 200 := by
      intro db ph
      cases ph <;> simp [execute]
      split <;> rfl
    simp only [handle] at hst ⊢
    unfold handleGet at hst ⊢
    cases ha : getAuthz E pol r.header with
    | error e => rfl
    | ok u =>
      rw [ha] at hst
      simp only at hst ⊢
      cases hgq : getQuery E r with
      | error e => rfl
      | ok q =>
        rw [hgq] at hst
        simp only at hst ⊢
        unfold runGet at hst ⊢
        cases hp : planText E db q with
        | error e => rfl
        | ok p =>
          rw [hp] at hst
          simp only at hst ⊢
          split
          · rfl
          · rename_i hr
            rw [if_neg hr] at hst
            split
            · rfl
            · rename_i hi
              rw [if_neg hi] at hst
              obtain ⟨ph, h1, h2⟩ := readonly_physical E db p (by simpa using hr)
              rw [h1] at hst
              exact absurd (.inl (hexec db ph)) hst
  | upload hd f =>
    exfalso
    apply h
    simp only [handle]
    unfold handleUpload
    repeat' split
    all_goals rfl
  | post hd sql =>
    simp only [handle, Request.header] at h ⊢
    unfold handlePost at h
    cases hp : headerToPrincipal E.hash hd pol with
    | error e => rw [hp] at h; exact absurd rfl h
    | ok pr =>
      rw [hp] at h
      simp only at h
      unfold runPost at h
      cases hs : E.parse sql with
      | error e => rw [hs] at h; exact absurd rfl h
      | ok stmts =>
        rw [hs] at h
        simp only at h
        cases hg : postGate pr pol stmts with
        | error e => rw [hg] at h; exact absurd rfl h
        | ok u =>
          have hc := (gate_ok hg).2.1
          cases ha : postAction stmts with
          | read => rw [ha] at hc; exact .inl ((C39_read_iff _ _ _ _ hp).1 hc)
          | write => rw [ha] at hc; exact .inr ((C39_write_iff _ _ _ _ hp).1 hc)

/-- **C39 violated (reading).** With reads guarded by a password and writes open to anyone, an
anonymous POST that puts a write in front of the SELECT is answered with the table's rows. -/
theorem C39_violated_read :
    let pol : Policy := ⟨.password ['#', 'x'], .any⟩
    ¬ MayRead demoEng.hash pol none ∧
    (handlePost demoEng pol demoDb none ['s']).2.status = 403 ∧
    (handlePost demoEng pol demoDb none ['m']).2.body.head? = some (.ok [[1], [2]]) := by
  refine ⟨?_, rfl, rfl⟩
  rintro (h | ⟨t, sha, hc, -, -⟩)
  · simp at h
  · exact not_carries_none t hc

/-- Without write permission the demo requests leave the database alone: hypotheses of
`C39_write_partial` met by a refused write and an accepted read. -/
example : (handle demoEng ⟨.any, .off⟩ demoDb (.post none ['m'])).1 = demoDb ∧
    (handle demoEng ⟨.any, .off⟩ demoDb (.post none ['s'])).1 = demoDb := by
  have hno : ¬ MayWrite demoEng.hash ⟨.any, .off⟩ none := by
    rintro (h | ⟨t, sha, -, h, -⟩) <;> simp at h
  constructor
  · refine C39_write_partial _ _ _ _ ?_ hno
    intro h sql stmts he hp s hs
    injection he with _ he
    subst he
    injection hp with hp
    subst hp
    rcases List.mem_cons.1 hs with h | h
    · subst h; exact id
    · simp at h; subst h; simp [Hidden]
  · refine C39_write_partial _ _ _ _ ?_ hno
    intro h sql stmts he hp s hs
    injection he with _ he
    subst he
    injection hp with hp
    subst hp
    simp at hs; subst hs; simp [Hidden]

/-! ### C43 -/

/-- **C43 (statuses).** Every API error is answered with a client or server error status. -/
theorem C43_error_status (e : ApiError) : 400 ≤ (errResp e).status ∧ (errResp e).status < 600 := by
  cases e <;> simp [errResp, ApiError.status]

/-- **C43**: the status of every error: 401 if the caller has to authenticate, 403 if the permission is missing, 405 if the
method does not suit the statement, 500 if reading or writing files fails, and 400 for everything else. -/
theorem C43_status_table (e : ApiError) :
    ((errResp e).status = 401 ↔ e = .needAccessToken ∨ e = .wrongAccessToken ∨ e = .invalidAuthorizationHeader) ∧
    ((errResp e).status = 403 ↔ e = .readForbidden ∨ e = .writeForbidden) ∧
    ((errResp e).status = 405 ↔ e = .notReadOnlyQuery ∨ e = .readOnlyEndpointDisabled) ∧
    ((errResp e).status = 500 ↔ ∃ m, e = .io m) ∧
    ((errResp e).status = 400 ∨ (errResp e).status = 401 ∨ (errResp e).status = 403 ∨ (errResp e).status = 405 ∨
      (errResp e).status = 500) := by
  cases e <;> simp [errResp, ApiError.status]

/-- **C43 (authentication).** A missing, wrong or malformed token is answered with 401 and a token
sent where none can be checked with 400; a request that authenticates but may not do what it asks
is answered with 403 on POST and upload. -/
theorem C43_auth (E : Eng) (pol : Policy) (db : Db) (r : Request) (hr : r ≠ .health) (e : ApiError)
    (h : headerToPrincipal E.hash r.header pol = .error e) :
    handle E pol db r = (db, errResp e) ∧ (e.status = 401 ∨ e.status = 400) ∧
    (e.status = 400 → ∃ tok, Carries r.header tok ∧ ∀ sha, pol.read ≠ .password sha ∧
      pol.write ≠ .password sha) := by
  refine ⟨?_, ?_⟩
  · cases r with
    | health => exact absurd rfl hr
    | get r =>
      simp only [handle, Request.header] at h ⊢
      unfold handleGet getAuthz
      rw [h]
    | post hd sql =>
      simp only [handle, Request.header] at h ⊢
      unfold handlePost
      rw [h]
    | upload hd f =>
      simp only [handle, Request.header] at h ⊢
      unfold handleUpload
      rw [h]
  · generalize r.header = hd at h
    obtain ⟨rd, wr⟩ := pol
    cases hd with
    | none =>
      cases rd <;> cases wr <;> simp [headerToPrincipal, tokenToPrincipal] at h <;> subst h <;>
        simp [ApiError.status]
    | some s =>
      unfold headerToPrincipal at h
      simp only at h
      split at h
      · rename_i hp
        have hc := (carries_iff s _).2 ⟨List.isPrefixOf_iff_prefix.1 hp, rfl⟩
        have hex : ∃ tok, Carries (some s) tok := ⟨_, hc⟩
        generalize trimBearer s = t at h
        cases rd <;> cases wr <;> simp [tokenToPrincipal] at h
        all_goals (try split at h) <;> (try split at h) <;> (try simp at h) <;> (try subst h) <;>
          simp_all [ApiError.status]
      · simp at h; subst h; simp [ApiError.status]

/-- **C43 (a POST that looks like success).** If POST answers 200 then every statement was planned
and, if it writes, executed without error.  Partial: errors while streaming the last result still
come with status 200 (`C43_violated_stream`). -/
theorem C43_post_partial (E : Eng) (pol : Policy) (db : Db) (header : Option Str) (sql : Str)
    (h : (handlePost E pol db header sql).2.status = 200) :
    ∃ stmts db', E.parse sql = .ok stmts ∧ stmts ≠ [] ∧ RunsTo E db stmts db' none := by
  have hst : ∀ e : ApiError, (errResp e).status ≠ 200 := by
    intro e; cases e <;> simp [errResp, ApiError.status]
  unfold handlePost at h
  cases hp : headerToPrincipal E.hash header pol with
  | error e => rw [hp] at h; exact absurd h (hst e)
  | ok pr =>
    rw [hp] at h
    simp only at h
    cases hs : E.parse sql with
    | error e => unfold runPost at h; rw [hs] at h; exact absurd h (hst _)
    | ok stmts =>
      cases hg : postGate pr pol stmts with
      | error e => unfold runPost at h; rw [hs] at h; simp only [hg] at h; exact absurd h (hst e)
      | ok u =>
        obtain ⟨db', r, h1, h2, h3⟩ := C41_in_order E pr pol db sql stmts hs hg
        cases r with
        | some e => rw [h2 e rfl] at h; exact absurd h (hst _)
        | none =>
          refine ⟨stmts, db', rfl, ?_, h1⟩
          rintro rfl
          simp [postGate] at hg

/-- **C43 violated.** A query that fails while its result is streamed is answered with status 200;
the error text is part of the body. -/
theorem C43_violated_stream :
    (handlePost demoEng ⟨.any, .any⟩ demoDb none ['s']).2.status = 200 ∧
    (handlePost demoEng ⟨.any, .any⟩ demoDb none ['s']).2.body = [.ok [[1], [2]], .error ['b']] ∧
    (handleGet demoEng ⟨.any, .any⟩ demoDb ⟨none, ['s'], none, none⟩).2.status = 200 := by
  refine ⟨rfl, rfl, rfl⟩

/-- The statuses of failed authentication, seen from outside. -/
example :
    (handle demoEng ⟨.password ['#', 'y'], .password ['#', 'x']⟩ demoDb (.post none ['s'])).2.status
      = 401 ∧
    (handle demoEng ⟨.any, .off⟩ demoDb (.post none ['w'])).2.status = 403 ∧
    (handle demoEng ⟨.any, .off⟩ demoDb (.upload none ⟨some ['a', '.', 'c', 's', 'v'], [], ['t']⟩)).2.status
      = 403 ∧
    (handle demoEng ⟨.any, .any⟩ demoDb (.upload none ⟨some ['a', '.', 'c', 's', 'v'], [], ['t']⟩)).2.status
      = 200 ∧
    (handle demoEng ⟨.any, .any⟩ demoDb (.upload none ⟨some ['a', '.', 't'], [], ['t']⟩)).2.status
      = 400 := by
  refine ⟨?_, ?_, ?_, ?_, ?_⟩ <;> rfl

end Seafowl.Front
