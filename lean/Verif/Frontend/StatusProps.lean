import Verif.Frontend.HttpProps
import Verif.Frontend.RoutesProps

/-!
# C103: the status of an answer tells what is wrong
-/

namespace Seafowl.Front

/-! ### specification -/

/-- The request does not say who it comes from: nothing is open and there is no header, the header is none of a token, or
the token is not one of the passwords that are set. -/
def Unauthenticated (hash : Str → Str) (pol : Policy) (header : Option Str) : Prop :=
  (header = none ∧ pol.read ≠ .any ∧ pol.write ≠ .any) ∨
  (∃ h, header = some h ∧ ¬ bearer <+: h) ∨
  (∃ tok, Carries header tok ∧ ((∃ s, AsksFor pol.read s) ∨ ∃ s, AsksFor pol.write s) ∧
    ¬ AsksFor pol.read (hash tok) ∧ ¬ AsksFor pol.write (hash tok))

/-- A token where no password is set. -/
def Pointless (pol : Policy) (header : Option Str) : Prop :=
  (∃ tok, Carries header tok) ∧ ¬ ((∃ s, AsksFor pol.read s) ∨ ∃ s, AsksFor pol.write s)

/-! ### lemmas -/

theorem asksFor_none {pol : Policy} {h : Str} (hn : ¬ ((∃ s, AsksFor pol.read s) ∨ ∃ s, AsksFor pol.write s)) :
    ¬ AsksFor pol.read h ∧ ¬ AsksFor pol.write h :=
  ⟨fun hx => hn (Or.inl ⟨h, hx⟩), fun hx => hn (Or.inr ⟨h, hx⟩)⟩

/-- What a failed authentication means. -/
theorem rejected_status {hash : Str → Str} {pol : Policy} {header : Option Str} {e : ApiError}
    (h : headerToPrincipal hash header pol = .error e) :
    (e.status = 401 ∧ Unauthenticated hash pol header) ∨ (e.status = 400 ∧ Pointless pol header) := by
  rcases (C39_rejected_iff hash pol header e).1 h with ⟨h1, h2, h3, rfl⟩ | ⟨x, h1, h2, rfl⟩ | ⟨tok, h1, h2, h3⟩
  · exact Or.inl ⟨rfl, Or.inl ⟨h1, h2, h3⟩⟩
  · exact Or.inl ⟨rfl, Or.inr (Or.inl ⟨x, h1, h2⟩)⟩
  · rcases h3 with ⟨h3, rfl⟩ | ⟨h3, rfl⟩
    · exact Or.inl ⟨rfl, Or.inr (Or.inr ⟨tok, h1, h3, h2⟩)⟩
    · exact Or.inr ⟨rfl, ⟨tok, h1⟩, h3⟩

theorem unauthenticated_rejected {hash : Str → Str} {pol : Policy} {header : Option Str}
    (h : Unauthenticated hash pol header) : ∃ e, headerToPrincipal hash header pol = .error e ∧ e.status = 401 := by
  rcases h with ⟨h1, h2, h3⟩ | ⟨x, h1, h2⟩ | ⟨tok, h1, h2, h3⟩
  · exact ⟨_, (C39_rejected_iff hash pol header .needAccessToken).2 (Or.inl ⟨h1, h2, h3, rfl⟩), rfl⟩
  · exact ⟨_, (C39_rejected_iff hash pol header .invalidAuthorizationHeader).2 (Or.inr (Or.inl ⟨x, h1, h2, rfl⟩)), rfl⟩
  · exact ⟨_, (C39_rejected_iff hash pol header .wrongAccessToken).2
      (Or.inr (Or.inr ⟨tok, h1, h3, Or.inl ⟨h2, rfl⟩⟩)), rfl⟩

theorem execute_status (E : Eng) (db : Db) (ph : Phys) : (execute E db ph).2.status = 200 := by
  cases ph with
  | dummy => rfl
  | rel p => rfl
  | explain => rfl
  | analyze p =>
    simp only [execute]
    cases h : E.dfRun p db with
    | mk a b => cases b <;> rfl

/-- After the permission is checked, a GET request is answered with 405 exactly if its statement writes. -/
theorem runGet_status (E : Eng) (db : Db) (inm : Option Str) (sql : Str) :
    ((runGet E db inm sql).2.status = 405 ↔ ∃ p, planText E db sql = .ok p ∧ isReadOnly p = false) ∧
    ((runGet E db inm sql).2.status = 200 ∨ (runGet E db inm sql).2.status = 304 ∨
      (runGet E db inm sql).2.status = 400 ∨ (runGet E db inm sql).2.status = 405) := by
  unfold runGet
  cases hp : planText E db sql with
  | error e => simp [errResp, ApiError.status]
  | ok p =>
    simp only
    by_cases hr : isReadOnly p = false
    · rw [if_pos hr]
      refine ⟨⟨fun _ => ⟨p, rfl, hr⟩, fun _ => rfl⟩, ?_⟩
      simp [errResp, ApiError.status]
    · rw [if_neg hr]
      have hno : ¬ ∃ p', (Except.ok p : Except Str LPlan) = .ok p' ∧ isReadOnly p' = false := by
        rintro ⟨p', h1, h2⟩
        injection h1 with h1
        subst h1
        exact hr h2
      split
      · exact ⟨⟨fun h => by simp at h, fun h => absurd h hno⟩, by simp⟩
      · cases hph : physical E db p with
        | mk db' res =>
          cases res with
          | error e => exact ⟨⟨fun h => by simp [errResp, ApiError.status] at h, fun h => absurd h hno⟩,
              by simp [errResp, ApiError.status]⟩
          | ok ph =>
            simp only
            have hs := execute_status E db' ph
            exact ⟨⟨fun h => by rw [hs] at h; simp at h, fun h => absurd h hno⟩, Or.inl hs⟩

theorem getQuery_status {E : Eng} {r : GetReq} {e : ApiError} (h : getQuery E r = .error e) : e.status = 400 := by
  unfold getQuery at h
  simp only at h
  split at h
  · split at h
    · injection h with h; subst h; rfl
    · split at h
      · injection h with h; subst h; rfl
      · cases h
  · split at h
    · injection h with h; subst h; rfl
    · cases h

/-- A GET request of a caller who may read. -/
def answerGet (E : Eng) (db : Db) (r : GetReq) : Db × Resp :=
  match getQuery E r with
  | .error e => (db, errResp e)
  | .ok q => runGet E db r.ifNoneMatch q

theorem handleGet_ok {E : Eng} {pol : Policy} {r : GetReq} {pr : Principal} (db : Db)
    (h : headerToPrincipal E.hash r.header pol = .ok pr) :
    handleGet E pol db r =
      if pol.read = .off then (db, errResp .readOnlyEndpointDisabled)
      else if canPerform pr .read pol = true then answerGet E db r else (db, errResp .readForbidden) := by
  unfold handleGet getAuthz answerGet
  rw [h]
  simp only
  cases pol.read with
  | off => simp
  | any =>
    by_cases hc : canPerform pr .read pol = true
    · simp [hc]
      cases getQuery E r <;> rfl
    · simp [hc]
  | password s =>
    by_cases hc : canPerform pr .read pol = true
    · simp [hc]
      cases getQuery E r <;> rfl
    · simp [hc]

theorem answerGet_status (E : Eng) (db : Db) (r : GetReq) :
    ((answerGet E db r).2.status = 405 ↔ ∃ q p, getQuery E r = .ok q ∧ planText E db q = .ok p ∧ isReadOnly p = false) ∧
    ((answerGet E db r).2.status = 200 ∨ (answerGet E db r).2.status = 304 ∨
      (answerGet E db r).2.status = 400 ∨ (answerGet E db r).2.status = 405) := by
  unfold answerGet
  cases hq : getQuery E r with
  | error e => simp [errResp, getQuery_status hq]
  | ok q =>
    simp only
    obtain ⟨h1, h2⟩ := runGet_status E db r.ifNoneMatch q
    refine ⟨?_, h2⟩
    rw [h1]
    constructor
    · rintro ⟨p, h1, h2⟩
      exact ⟨q, p, rfl, h1, h2⟩
    · rintro ⟨q', p, h0, h1, h2⟩
      injection h0 with h0
      subst h0
      exact ⟨p, h1, h2⟩

/-- After authentication, a POST request is answered with 403 exactly if the caller lacks the permission. -/
theorem runPost_status (E : Eng) (pr : Principal) (pol : Policy) (db : Db) (sql : Str) :
    ((runPost E pr pol db sql).2.status = 403 ↔ ∃ stmts, E.parse sql = .ok stmts ∧ stmts ≠ [] ∧
      canPerform pr (if ∀ s ∈ stmts, isStmtReadOnly s = true then .read else .write) pol = false) ∧
    ((runPost E pr pol db sql).2.status = 200 ∨ (runPost E pr pol db sql).2.status = 400 ∨
      (runPost E pr pol db sql).2.status = 403) := by
  unfold runPost
  cases hp : E.parse sql with
  | error e => simp [errResp, ApiError.status]
  | ok stmts =>
    have hact : postAction stmts = if ∀ s ∈ stmts, isStmtReadOnly s = true then .read else .write := by
      unfold postAction
      have : stmts.countP isStmtReadOnly = stmts.length ↔ ∀ s ∈ stmts, isStmtReadOnly s = true :=
        List.countP_eq_length
      by_cases h : ∀ s ∈ stmts, isStmtReadOnly s = true
      · rw [if_pos h, if_pos (this.2 h)]
      · rw [if_neg h, if_neg (fun h' => h (this.1 h'))]
    have hex : (∃ stmts', (Except.ok stmts : Except Str (List Stmt)) = .ok stmts' ∧ stmts' ≠ [] ∧
        canPerform pr (if ∀ s ∈ stmts', isStmtReadOnly s = true then .read else .write) pol = false) ↔
        (stmts ≠ [] ∧ canPerform pr (postAction stmts) pol = false) := by
      rw [hact]
      constructor
      · rintro ⟨s', h1, h2⟩
        injection h1 with h1
        subst h1
        exact h2
      · intro h
        exact ⟨stmts, rfl, h⟩
    rw [hex]
    simp only
    cases hg : postGate pr pol stmts with
    | error e =>
      simp only
      unfold postGate at hg
      split at hg
      · next he =>
        injection hg with hg
        subst hg
        have : stmts = [] := List.isEmpty_iff.1 he
        simp [errResp, ApiError.status, this]
      · next he =>
        have hne : stmts ≠ [] := fun h => he (List.isEmpty_iff.2 h)
        simp only at hg
        split at hg
        · next hc =>
          injection hg with hg
          subst hg
          simp [errResp, ApiError.status, hne, hc]
        · next hc =>
          split at hg
          · injection hg with hg
            subst hg
            simp only [errResp, ApiError.status]
            exact ⟨⟨fun h => by simp at h, fun h => absurd h.2 hc⟩, by simp⟩
          · cases hg
    | ok u =>
      have hc : ¬ (stmts ≠ [] ∧ canPerform pr (postAction stmts) pol = false) := by
        rintro ⟨h1, h2⟩
        unfold postGate at hg
        rw [if_neg (fun h => h1 (List.isEmpty_iff.1 h))] at hg
        simp [h2] at hg
      have key : ∀ x : Db × Resp, (x.2.status = 200 ∨ x.2.status = 400) →
          ((x.2.status = 403 ↔ (stmts ≠ [] ∧ canPerform pr (postAction stmts) pol = false)) ∧
          (x.2.status = 200 ∨ x.2.status = 400 ∨ x.2.status = 403)) := by
        intro x hx
        refine ⟨⟨fun h => ?_, fun h => absurd h hc⟩, ?_⟩
        · rcases hx with hx | hx <;> rw [hx] at h <;> simp at h
        · rcases hx with hx | hx
          · exact Or.inl hx
          · exact Or.inr (Or.inl hx)
      simp only
      cases hr : runStmts E db stmts none with
      | mk db' res =>
        cases res with
        | error e => exact key _ (Or.inr rfl)
        | ok o =>
          cases o with
          | none => exact key _ (Or.inr rfl)
          | some ph => exact key _ (Or.inl (execute_status E db' ph))

/-- After authentication, an upload is answered with 403 exactly if the caller may not write. -/
theorem upload_status (E : Eng) (pol : Policy) (db : Db) (header : Option Str) (f : Form) (pr : Principal)
    (h : headerToPrincipal E.hash header pol = .ok pr) :
    ((handleUpload E pol db header f).2.status = 403 ↔ canPerform pr .write pol = false) ∧
    ((handleUpload E pol db header f).2.status = 200 ∨ (handleUpload E pol db header f).2.status = 400 ∨
      (handleUpload E pol db header f).2.status = 403) := by
  unfold handleUpload
  rw [h]
  simp only
  by_cases hc : canPerform pr .write pol = false
  · simp [hc, errResp, ApiError.status]
  · rw [if_neg hc]
    have key : ∀ x : Db × Resp, (x.2.status = 200 ∨ x.2.status = 400) →
        ((x.2.status = 403 ↔ canPerform pr .write pol = false) ∧
        (x.2.status = 200 ∨ x.2.status = 400 ∨ x.2.status = 403)) := by
      intro x hx
      refine ⟨⟨fun h => ?_, fun h => absurd h hc⟩, ?_⟩
      · rcases hx with hx | hx <;> rw [hx] at h <;> simp at h
      · rcases hx with hx | hx
        · exact Or.inl hx
        · exact Or.inr (Or.inl hx)
    split
    · exact key _ (Or.inr rfl)
    · exact key _ (Or.inr rfl)
    · split
      · exact key _ (Or.inr rfl)
      · cases ha : E.apply (.upload f.schema f.table _) db with
        | mk db' res =>
          cases res with
          | none => exact key _ (Or.inl rfl)
          | some e => exact key _ (Or.inr rfl)

/-- An upload by a caller who may write is answered with 200 exactly if the file was loaded, and the state afterwards
is the one the load left; everything else leaves the state alone and is answered with 400. -/
theorem C103_upload (E : Eng) (pol : Policy) (db : Db) (header : Option Str) (f : Form) :
    (handleUpload E pol db header f).2.status = 200 →
      ∃ name, f.filename = some name ∧ name ≠ [] ∧
        E.apply (.upload f.schema f.table name) db = ((handleUpload E pol db header f).1, none) := by
  unfold handleUpload
  cases h : headerToPrincipal E.hash header pol with
  | error e =>
    intro hs
    cases e <;> simp [errResp, ApiError.status] at hs
  | ok pr =>
    simp only
    by_cases hc : canPerform pr .write pol = false
    · simp [hc, errResp, ApiError.status]
    · rw [if_neg hc]
      split
      · intro hs; simp [errResp, ApiError.status] at hs
      · intro hs; simp [errResp, ApiError.status] at hs
      · rename_i name hne hname
        split
        · intro hs; simp [errResp, ApiError.status] at hs
        · intro hs
          refine ⟨name, hname, hne, ?_⟩
          cases ha : E.apply (.upload f.schema f.table name) db with
          | mk db' res =>
            rw [ha] at hs
            cases res with
            | none => rfl
            | some e => simp [errResp, ApiError.status] at hs

/-! ### C103 -/

/-- A request that authenticates. -/
theorem handle_authenticated (E : Eng) (pol : Policy) (db : Db) (r : Request) (hr : r ≠ .health) (pr : Principal)
    (h : headerToPrincipal E.hash r.header pol = .ok pr) :
    (handle E pol db r).2.status ≠ 401 ∧ (handle E pol db r).2.status < 500 := by
  cases r with
  | health => exact absurd rfl hr
  | get r =>
    simp only [handle, Request.header] at h ⊢
    rw [handleGet_ok db h]
    have := (answerGet_status E db r).2
    split
    · simp [errResp, ApiError.status]
    · split
      · omega
      · simp [errResp, ApiError.status]
  | post hd sql =>
    simp only [handle, Request.header] at h ⊢
    unfold handlePost
    rw [h]
    have := (runPost_status E pr pol db sql).2
    simp only
    omega
  | upload hd f =>
    simp only [handle, Request.header] at h ⊢
    have := (upload_status E pol db hd f pr h).2
    omega

/-- **C103** for 401: exactly the requests that do not authenticate.  (Where no password is set a token is answered with
400.) -/
theorem C103_unauthorized (E : Eng) (pol : Policy) (db : Db) (r : Request) (hr : r ≠ .health) :
    ((handle E pol db r).2.status = 401 ↔ Unauthenticated E.hash pol r.header) ∧
    (Pointless pol r.header → (handle E pol db r).2.status = 400) := by
  cases h : headerToPrincipal E.hash r.header pol with
  | ok pr =>
    have h1 := handle_authenticated E pol db r hr pr h
    refine ⟨⟨fun hs => absurd hs h1.1, fun hu => ?_⟩, fun hp => ?_⟩
    · obtain ⟨e, he, _⟩ := unauthenticated_rejected hu
      rw [h] at he; cases he
    · obtain ⟨⟨tok, ht⟩, hn⟩ := hp
      have he := (C39_rejected_iff E.hash pol r.header .uselessAccessToken).2
        (Or.inr (Or.inr ⟨tok, ht, asksFor_none hn, Or.inr ⟨hn, rfl⟩⟩))
      rw [h] at he; cases he
  | error e =>
    obtain ⟨h1, _, _⟩ := C43_auth E pol db r hr e h
    rw [h1]
    simp only [errResp]
    refine ⟨⟨fun hs => ?_, fun hu => ?_⟩, fun hp => ?_⟩
    · rcases rejected_status h with ⟨_, hu⟩ | ⟨h2, _⟩
      · exact hu
      · rw [h2] at hs; simp at hs
    · obtain ⟨e', he, hs⟩ := unauthenticated_rejected hu
      rw [h] at he; injection he with he; rw [he]; exact hs
    · obtain ⟨⟨tok, ht⟩, hn⟩ := hp
      have he := (C39_rejected_iff E.hash pol r.header .uselessAccessToken).2
        (Or.inr (Or.inr ⟨tok, ht, asksFor_none hn, Or.inr ⟨hn, rfl⟩⟩))
      rw [h] at he; injection he with he; rw [he]; rfl

/-- **C103** for 403: exactly the requests that authenticate and are not permitted; POST and upload. -/
theorem C103_forbidden (E : Eng) (pol : Policy) (db : Db) (r : Request) (pr : Principal)
    (h : headerToPrincipal E.hash r.header pol = .ok pr) :
    (handle E pol db r).2.status = 403 ↔
      match r with
      | .get _ => pol.read ≠ .off ∧ ¬ MayRead E.hash pol r.header
      | .post _ sql => ∃ stmts, E.parse sql = .ok stmts ∧ stmts ≠ [] ∧
          if ∀ s ∈ stmts, isStmtReadOnly s = true then ¬ MayRead E.hash pol r.header else ¬ MayWrite E.hash pol r.header
      | .upload _ _ => ¬ MayWrite E.hash pol r.header
      | .health => False := by
  have hrd : canPerform pr .read pol = false ↔ ¬ MayRead E.hash pol r.header := by
    rw [← C39_read_iff E.hash pol r.header pr h]; simp
  have hwr : canPerform pr .write pol = false ↔ ¬ MayWrite E.hash pol r.header := by
    rw [← C39_write_iff E.hash pol r.header pr h]; simp
  cases r with
  | health => simp [handle]
  | get r =>
    rw [← hrd]
    simp only [handle, Request.header] at h ⊢
    rw [handleGet_ok db h]
    have := (answerGet_status E db r).2
    split
    · next ho => simp [errResp, ApiError.status, ho]
    · next ho =>
      split
      · next hc =>
        simp only [hc]
        exact ⟨fun hs => by omega, fun hs => by simp at hs⟩
      · next hc => simpa [errResp, ApiError.status, ho] using hc
  | post hd sql =>
    simp only [handle]
    unfold handlePost
    simp only [Request.header] at h
    rw [h]
    simp only
    rw [(runPost_status E pr pol db sql).1]
    constructor
    · rintro ⟨stmts, h1, h2, h3⟩
      refine ⟨stmts, h1, h2, ?_⟩
      split
      · next hc => rw [if_pos hc] at h3; exact hrd.1 h3
      · next hc => rw [if_neg hc] at h3; exact hwr.1 h3
    · rintro ⟨stmts, h1, h2, h3⟩
      refine ⟨stmts, h1, h2, ?_⟩
      split
      · next hc => rw [if_pos hc] at h3; exact hrd.2 h3
      · next hc => rw [if_neg hc] at h3; exact hwr.2 h3
  | upload hd f =>
    simp only [handle]
    rw [(upload_status E pol db hd f pr h).1, hwr]

/-- **C103** for 405: exactly the GET requests of callers who authenticate, where reading over GET is switched off or the
statement writes. -/
theorem C103_not_allowed (E : Eng) (pol : Policy) (db : Db) (r : Request) :
    (handle E pol db r).2.status = 405 ↔
      ∃ g, r = .get g ∧ (∃ pr, headerToPrincipal E.hash g.header pol = .ok pr) ∧
        (pol.read = .off ∨ (MayRead E.hash pol g.header ∧
          ∃ q p, getQuery E g = .ok q ∧ planText E db q = .ok p ∧ isReadOnly p = false)) := by
  have hrej : ∀ header e, headerToPrincipal E.hash header pol = .error e → e.status ≠ 405 := by
    intro header e he
    rcases rejected_status he with ⟨h, _⟩ | ⟨h, _⟩ <;> rw [h] <;> simp
  cases r with
  | health => simp [handle]
  | post hd sql =>
    refine ⟨fun hs => ?_, fun ⟨g, hg, _⟩ => by cases hg⟩
    simp only [handle] at hs
    unfold handlePost at hs
    cases h : headerToPrincipal E.hash hd pol with
    | error e => rw [h] at hs; exact absurd hs (hrej _ _ h)
    | ok pr =>
      rw [h] at hs
      have := (runPost_status E pr pol db sql).2
      simp only at hs
      omega
  | upload hd f =>
    refine ⟨fun hs => ?_, fun ⟨g, hg, _⟩ => by cases hg⟩
    simp only [handle] at hs
    cases h : headerToPrincipal E.hash hd pol with
    | error e => unfold handleUpload at hs; rw [h] at hs; exact absurd hs (hrej _ _ h)
    | ok pr =>
      have := (upload_status E pol db hd f pr h).2
      omega
  | get g =>
    simp only [handle]
    cases h : headerToPrincipal E.hash g.header pol with
    | error e =>
      unfold handleGet getAuthz
      rw [h]
      refine ⟨fun hs => absurd hs (hrej _ _ h), ?_⟩
      rintro ⟨g', hg, ⟨pr, hp⟩, _⟩
      injection hg with hg
      subst hg
      rw [h] at hp; cases hp
    | ok pr =>
      have hm := C39_read_iff E.hash pol g.header pr h
      rw [handleGet_ok db h]
      have fwd : ∀ P : Prop, ((pol.read = .off ∨ (MayRead E.hash pol g.header ∧
            ∃ q p, getQuery E g = .ok q ∧ planText E db q = .ok p ∧ isReadOnly p = false)) ↔ P) →
          ((∃ g', Request.get g = .get g' ∧ (∃ pr, headerToPrincipal E.hash g'.header pol = .ok pr) ∧
            (pol.read = .off ∨ (MayRead E.hash pol g'.header ∧
              ∃ q p, getQuery E g' = .ok q ∧ planText E db q = .ok p ∧ isReadOnly p = false))) ↔ P) := by
        intro P hP
        rw [← hP]
        constructor
        · rintro ⟨g', hg, _, h2⟩
          injection hg with hg
          subst hg
          exact h2
        · intro h2
          exact ⟨g, rfl, ⟨pr, h⟩, h2⟩
      symm
      apply fwd
      split
      · next ho => simp [errResp, ApiError.status, ho]
      · next ho =>
        split
        · next hc =>
          rw [(answerGet_status E db g).1]
          exact ⟨fun h => (h.resolve_left ho).2, fun h => Or.inr ⟨hm.1 hc, h⟩⟩
        · next hc =>
          simp only [errResp, ApiError.status]
          exact ⟨fun h => absurd (hm.2 (h.resolve_left ho).1) hc, fun h => by simp at h⟩

/-- **C103 is violated** for failures of the server: whatever goes wrong while a statement is executed, in the store, the
catalog or for lack of memory, is answered as a mistake of the client, or with 200 if the result is being sent already;
no request is answered with a status of 500 or more by the query routes. -/
theorem C103_violated (E : Eng) (pol : Policy) (db db' : Db) (n : Nat) (e sql : Str) (header : Option Str)
    (pr : Principal) (h : headerToPrincipal E.hash header pol = .ok pr) (hw : MayWrite E.hash pol header)
    (hp : E.parse sql = .ok [.dml n]) (hc : E.check db n = .ok ()) (hf : E.apply (.stmt n) db = (db', some e)) :
    (handle E pol db (.post header sql)).2.status = 400 ∧
    ∀ r, r ≠ .health → (∃ pr, headerToPrincipal E.hash r.header pol = .ok pr) → (handle E pol db r).2.status < 500 := by
  constructor
  · have hcan := (C39_write_iff E.hash pol header pr h).2 hw
    simp [handle, handlePost, h, runPost, hp, postGate, postAction, isStmtReadOnly, hcan, runStmts, planStmt, hc,
      Except.map, physical, hf, errResp, ApiError.status]
  · rintro r hr ⟨pr, h⟩
    exact (handle_authenticated E pol db r hr pr h).2

/-- **C103 is violated** once the answer has begun: a statement that fails while its result is sent is answered with 200.
The text of the failure is in the body, in place of the rows that are missing: for a query whose stream breaks, and for
EXPLAIN ANALYZE, of which nothing else is sent. -/
theorem C103_violated_stream (E : Eng) (pol : Policy) (db : Db) (sql : Str) (header : Option Str) (e : Str)
    (pr : Principal) (h : headerToPrincipal E.hash header pol = .ok pr) (hr : MayRead E.hash pol header) :
    (∀ q p, E.parse sql = .ok [.query q none] → planQ db q = .ok p → Except.error e ∈ E.stream db p →
      (handle E pol db (.post header sql)).2.status = 200 ∧
      Except.error e ∈ (handle E pol db (.post header sql)).2.body) ∧
    (∀ q p db', E.parse sql = .ok [.explain true (.query q none)] → planQ db q = .ok p →
      E.dfRun (.query p) db = (db', some e) →
      (handle E pol db (.post header sql)).2.status = 200 ∧
      (handle E pol db (.post header sql)).2.body = [.error e]) := by
  have hcan := (C39_read_iff E.hash pol header pr h).2 hr
  constructor
  · intro q p hp hq hs
    simp [handle, handlePost, h, runPost, hp, postGate, postAction, isStmtReadOnly, hcan, runStmts, planStmt, hq,
      Except.map, physical, execute, hs]
  · intro q p db' hp hq hs
    simp [handle, handlePost, h, runPost, hp, postGate, postAction, isStmtReadOnly, hcan, runStmts, planStmt, hq,
      Except.map, physical, execute, hs]

/-- The query reads table `n`. -/
inductive Reads (n : Str) : Q → Prop
  | table : Reads n (.table n)
  | op (f : Nat) (q : Q) : Reads n q → Reads n (.op f q)
  | joinL (a b : Q) : Reads n a → Reads n (.join a b)
  | joinR (a b : Q) : Reads n b → Reads n (.join a b)
  | subQ (f : Nat) (q s : Q) : Reads n q → Reads n (.sub f q s)
  | subS (f : Nat) (q s : Q) : Reads n s → Reads n (.sub f q s)

theorem missing_planQ (db : Db) (n : Str) (hn : db.tables n = none) (q : Q) (h : Reads n q) : ∃ e, planQ db q = .error e := by
  induction h with
  | table => exact ⟨n, by simp [planQ, hn]⟩
  | op f q _ ih => obtain ⟨e, he⟩ := ih; exact ⟨e, by simp [planQ, he, Except.map]⟩
  | joinL a b _ ih => obtain ⟨e, he⟩ := ih; exact ⟨e, by simp [planQ, he]⟩
  | joinR a b _ ih =>
    obtain ⟨e, he⟩ := ih
    cases ha : planQ db a with
    | ok p => exact ⟨e, by simp [planQ, he, ha]⟩
    | error e' => exact ⟨e', by simp [planQ, ha]⟩
  | subQ f q s _ ih => obtain ⟨e, he⟩ := ih; exact ⟨e, by simp [planQ, he]⟩
  | subS f q s _ ih =>
    obtain ⟨e, he⟩ := ih
    cases ha : planQ db q with
    | ok p => exact ⟨e, by simp [planQ, he, ha]⟩
    | error e' => exact ⟨e', by simp [planQ, ha]⟩

/-- **C103**: a query that reads a table that does not exist, at whatever depth, is answered with 400 and changes
nothing. -/
theorem C103_missing_table (E : Eng) (pol : Policy) (db : Db) (sql : Str) (header : Option Str) (q : Q) (n : Str)
    (pr : Principal) (h : headerToPrincipal E.hash header pol = .ok pr) (hr : MayRead E.hash pol header)
    (hp : E.parse sql = .ok [.query q none]) (hq : Reads n q) (hn : db.tables n = none) :
    (handle E pol db (.post header sql)).2.status = 400 ∧ (handle E pol db (.post header sql)).1 = db := by
  have hcan := (C39_read_iff E.hash pol header pr h).2 hr
  obtain ⟨e, he⟩ := missing_planQ db n hn q hq
  simp [handle, handlePost, h, runPost, hp, postGate, postAction, isStmtReadOnly, hcan, runStmts, planStmt, he,
    Except.map, errResp, ApiError.status]

example : Reads ['t'] (.join (.const []) (.op 1 (.sub 2 (.const []) (.table ['t'])))) :=
  .joinR _ _ (.op _ _ (.subS _ _ _ .table))

/-- A query whose stream breaks, and its EXPLAIN ANALYZE. -/
example :
    let E : Eng := { demoEng with
      parse := fun s => .ok [if s = ['s'] then .query (.const []) none else .explain true (.query (.const []) none)],
      stream := fun _ _ => [.ok [[1]], .error ['e']], dfRun := fun _ db => (db, some ['e']) }
    (handle E ⟨.any, .off⟩ demoDb (.post none ['s'])).2.body = [.ok [[1]], .error ['e']] ∧
    (handle E ⟨.any, .off⟩ demoDb (.post none ['x'])).2.body = [.error ['e']] ∧
    (handle E ⟨.any, .off⟩ demoDb (.post none ['s'])).2.status = 200 := by
  refine ⟨?_, ?_, ?_⟩ <;> rfl

/-! ### concrete cases: each status occurs -/

example :
    ((handle demoEng ⟨.password ['#', 'y'], .password ['#', 'x']⟩ demoDb (.post none ['s'])).2.status,
      (handle demoEng ⟨.any, .off⟩ demoDb (.post none ['w'])).2.status,
      (handle demoEng ⟨.off, .any⟩ demoDb (.get ⟨none, ['s'], none, none⟩)).2.status,
      (handle demoEng ⟨.any, .off⟩ demoDb (.get ⟨none, ['w'], none, none⟩)).2.status,
      (handle demoEng ⟨.any, .off⟩ demoDb (.get ⟨none, ['s'], none, none⟩)).2.status) = (401, 403, 405, 405, 200) := by
  rfl

end Seafowl.Front

namespace Seafowl.Routes

open Seafowl.Front (ApiError Policy Principal)
open Seafowl.Store.Http (ascii)

/-- **C103** for 500: only if the disk of the server failed. -/
theorem C103_server {σ : Type} (R : Reader σ) (hash : Bytes → Bytes) (ht : Front.Str → Front.Str) (pol : Policy)
    (r : Req) (n : Nat) (h : ask R hash ht pol r = .refused n) (hn : 500 ≤ n) :
    n = 500 ∧ ∃ p ∈ r.form, ∃ d, p.data = some d ∧ R.disk d = false := by
  have hrej : ∀ {e}, Front.headerToPrincipal ht r.auth pol = .error e → e.status < 500 := by
    intro e he
    rcases Front.rejected_status he with ⟨h, _⟩ | ⟨h, _⟩ <;> rw [h] <;> decide
  have hpart : ∀ (st : Form σ) (p : Part) (e : ApiError), part R st p = .error e → 500 ≤ e.status →
      e.status = 500 ∧ ∃ d, p.data = some d ∧ R.disk d = false := by
    intro st p e he hs
    unfold part at he
    split at he
    · split at he
      · injection he with he; subst he; exact absurd hs (by decide)
      · unfold headerPart at he
        split at he
        · cases he
        · injection he with he; subst he; exact absurd hs (by decide)
    · split at he
      · split at he
        · injection he with he; subst he; exact absurd hs (by decide)
        · unfold schemaPart at he
          split at he
          · split at he
            · cases he
            · injection he with he; subst he; exact absurd hs (by decide)
          · injection he with he; subst he; exact absurd hs (by decide)
      · split at he
        · unfold filePart at he
          split at he
          · injection he with he; subst he; exact absurd hs (by decide)
          · split at he
            · injection he with he; subst he; exact absurd hs (by decide)
            · split at he
              · injection he with he; subst he; exact absurd hs (by decide)
              · next d hd =>
                split at he
                · cases he
                · next hdk =>
                  injection he with he
                  subst he
                  exact ⟨rfl, d, hd, by simpa using hdk⟩
        · cases he
  have hparts : ∀ (l : List Part) (st : Form σ) (e : ApiError), parts R st l = .error e → 500 ≤ e.status →
      e.status = 500 ∧ ∃ p ∈ l, ∃ d, p.data = some d ∧ R.disk d = false := by
    intro l
    induction l with
    | nil => intro st e he; cases he
    | cons q l ih =>
      intro st e he hs
      simp only [parts] at he
      cases hq : part R st q with
      | error e' =>
        rw [hq] at he
        injection he with he
        subst he
        obtain ⟨h1, d, h2⟩ := hpart st q _ hq hs
        exact ⟨h1, q, by simp, d, h2⟩
      | ok st' =>
        rw [hq] at he
        obtain ⟨h1, p, hp, h2⟩ := ih st' e he hs
        exact ⟨h1, p, by simp [hp], h2⟩
  unfold ask at h
  cases hd : dispatch r.method (segments r.path) with
  | error s =>
    rw [hd] at h
    injection h with h
    subst h
    rcases C100_refused _ _ _ hd with ⟨rfl, _⟩ | ⟨rfl, _⟩ <;> exact absurd hn (by decide)
  | ok tg =>
    rw [hd] at h
    cases tg with
    | health => cases h
    | query d =>
      simp only at h
      split at h
      · next e he => injection h with h; have := hrej he; omega
      · split at h
        · injection h with h; subst h; exact absurd hn (by decide)
        · cases h
    | read d x =>
      simp only at h
      split at h
      · next e he =>
        injection h with h
        unfold readAuthz at he
        split at he
        · next e' he' => injection he with he; subst he; have := hrej he'; omega
        · split at he
          · injection he with he; subst he; rw [← h] at hn; exact absurd hn (by decide)
          · split at he
            · cases he
            · injection he with he; subst he; rw [← h] at hn; exact absurd hn (by decide)
      · split at h
        · next e he =>
          injection h with h
          unfold readQuery at he
          split at he
          · split at he
            · split at he
              · cases he
              · injection he with he; subst he; rw [← h] at hn; exact absurd hn (by decide)
            · injection he with he; subst he; rw [← h] at hn; exact absurd hn (by decide)
          · split at he
            · cases he
            · injection he with he; subst he; rw [← h] at hn; exact absurd hn (by decide)
        · cases h
    | upload d s' t' =>
      simp only at h
      split at h
      · next e he => injection h with h; have := hrej he; omega
      · split at h
        · split at h
          · next e he =>
            injection h with h
            subst h
            simp only [readForm] at he
            split at he
            · next e' he' =>
              injection he with he
              subst he
              exact hparts _ _ _ he' hn
            · split at he
              · injection he with he; subst he; exact absurd hn (by decide)
              · cases he
          · cases h
        · injection h with h; subst h; exact absurd hn (by decide)

/-- **C103** for 400: a request that is at fault in itself, whoever sends it, is answered so, also where the caller may do
everything: a query that cannot be decoded or has another hash, a form without a file, of another type, with a schema or
a header that cannot be read. -/
theorem C103_bad_request {σ : Type} (R : Reader σ) (utf8 : Bytes → Bool) (hash : Bytes → Bytes) (l : List Part)
    (x : Bytes) (raw : Option Bytes) :
    (∀ e, readQuery utf8 hash x raw = .error e → e.status = 400) ∧
    ((∀ d, R.disk d = true) → ∀ e, readForm R l = .error e → e.status = 400) := by
  constructor
  · intro e he
    unfold readQuery at he
    split at he
    · split at he
      · split at he
        · cases he
        · injection he with he; subst he; rfl
      · injection he with he; subst he; rfl
    · split at he
      · cases he
      · injection he with he; subst he; rfl
  · intro hd e he
    have hpart : ∀ (st : Form σ) (p : Part) (e : ApiError), part R st p = .error e → e.status = 400 := by
      intro st p e he
      unfold part at he
      split at he
      · split at he
        · injection he with he; subst he; rfl
        · unfold headerPart at he
          split at he
          · cases he
          · injection he with he; subst he; rfl
      · split at he
        · split at he
          · injection he with he; subst he; rfl
          · unfold schemaPart at he
            split at he
            · split at he
              · cases he
              · injection he with he; subst he; rfl
            · injection he with he; subst he; rfl
        · split at he
          · unfold filePart at he
            split at he
            · injection he with he; subst he; rfl
            · split at he
              · injection he with he; subst he; rfl
              · split at he
                · injection he with he; subst he; rfl
                · rw [if_pos (hd _)] at he; cases he
          · cases he
    have hparts : ∀ (l : List Part) (st : Form σ) (e : ApiError), parts R st l = .error e → e.status = 400 := by
      intro l
      induction l with
      | nil => intro st e he; cases he
      | cons q l ih =>
        intro st e he
        simp only [parts] at he
        cases hq : part R st q with
        | error e' =>
          rw [hq] at he
          injection he with he
          subst he
          exact hpart st q _ hq
        | ok st' => rw [hq] at he; exact ih st' e he
    simp only [readForm] at he
    split at he
    · next e' he' => injection he with he; subst he; exact hparts _ _ _ he'
    · split at he
      · injection he with he; subst he; rfl
      · cases he

end Seafowl.Routes
