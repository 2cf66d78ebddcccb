/-
C114: what a shared cache in front of the server hands out.  C115: the request counters.
C116: pages of other origins.

The specification of the cache is RFC 9111: an answer with status 200 and `Cache-Control` may be kept
and given to a later request for the same address if all headers named in its `Vary` are the same and
it is fresh; a request whose `If-None-Match` names its ETag gets 304.
-/
import Verif.Frontend.Outer
import Verif.Frontend.HttpProps
import Verif.Frontend.RoutesProps

namespace Seafowl.Front

open Seafowl.Store.Http (ascii)
open Seafowl.Routes (splitSlash segments dispatch Target Method)

/-! ## C114 -/

/-- The value of a header of a request, by the names of RFC 9110 and the documentation. -/
def WebReq.headerNamed (r : WebReq) (h : Str) : Option Str :=
  if h = "Authorization".toList then r.auth
  else if h = "Content-Type".toList then r.contentType
  else if h = "Origin".toList then r.origin
  else if h = "X-Seafowl-Query".toList then r.queryHeader
  else if h = "If-None-Match".toList then r.ifNoneMatch
  else none

/-- An answer kept by the cache, with the request it answered and the time. -/
structure Stored where
  req : WebReq
  ans : Answer
  time : Nat

/-- The kept answer may be given to this request now.  `fresh cc n`: an answer with this `Cache-Control`
is fresh `n` seconds later. -/
def MayServe (fresh : Str → Nat → Prop) (e : Stored) (r : WebReq) (now : Nat) : Prop :=
  e.req.db = r.db ∧ e.req.path = r.path ∧ e.ans.resp.status = 200 ∧ e.time ≤ now ∧
  (∃ cc, e.ans.cacheControl = some cc ∧ fresh cc (now - e.time)) ∧
  ∀ h ∈ e.ans.vary, r.headerNamed h = e.req.headerNamed h

/-- What the cache makes of a kept answer: 304 without a body if the client has it already. -/
def handOut (e : Stored) (r : WebReq) : Answer :=
  if r.ifNoneMatch ≠ none ∧ r.ifNoneMatch = e.ans.resp.etag then
    { e.ans with resp := { status := 304, body := [], etag := none } }
  else e.ans

/-- Server, cache and clock; `past` are the states the server has been in. -/
structure World where
  dbs : Dbs
  kept : List Stored
  now : Nat
  past : List (Nat × Dbs)

/-- One step: the server changes in any way while time passes; a request reaches the server, whose
answer may be kept; the cache answers; the cache forgets. -/
inductive WStep (E : Eng) (pol : Policy) (cc : Str) (fresh : Str → Nat → Prop) :
    World → Option (WebReq × Answer) → World → Prop
  | change (w : World) (S : Dbs) (t : Nat) (h : w.now ≤ t) :
      WStep E pol cc fresh w none { w with dbs := S, now := t, past := (w.now, w.dbs) :: w.past }
  | forward (w : World) (r : WebReq) (keep : Bool) :
      WStep E pol cc fresh w (some (r, (serveGet E pol cc w.dbs r).2))
        { w with
          dbs := (serveGet E pol cc w.dbs r).1
          past := (w.now, w.dbs) :: w.past
          kept := if keep then ⟨r, (serveGet E pol cc w.dbs r).2, w.now⟩ :: w.kept else w.kept }
  | hit (w : World) (r : WebReq) (e : Stored) (he : e ∈ w.kept) (hm : MayServe fresh e r w.now) :
      WStep E pol cc fresh w (some (r, handOut e r)) w
  | forget (w : World) (l : List Stored) (h : ∀ e ∈ l, e ∈ w.kept) :
      WStep E pol cc fresh w none { w with kept := l }

/-- The worlds reached from a server with an empty cache. -/
inductive Reached (E : Eng) (pol : Policy) (cc : Str) (fresh : Str → Nat → Prop) : World → Prop
  | start (S : Dbs) : Reached E pol cc fresh { dbs := S, kept := [], now := 0, past := [] }
  | step {w w' : World} {o : Option (WebReq × Answer)} (h : Reached E pol cc fresh w)
      (hs : WStep E pol cc fresh w o w') : Reached E pol cc fresh w'

/-- Every kept answer was given by the server in one of its states. -/
theorem kept_genuine {E : Eng} {pol : Policy} {cc : Str} {fresh : Str → Nat → Prop} {w : World}
    (h : Reached E pol cc fresh w) : ∀ e ∈ w.kept, ∃ S, (e.time, S) ∈ w.past ∧
      e.ans = (serveGet E pol cc S e.req).2 := by
  induction h with
  | start S => intro e he; cases he
  | step h hs ih =>
    cases hs with
    | change S t ht =>
      intro e he
      obtain ⟨S', h1, h2⟩ := ih e he
      exact ⟨S', List.mem_cons_of_mem _ h1, h2⟩
    | forward r keep =>
      intro e he
      by_cases hk : keep = true
      · simp only [hk, if_true] at he
        rcases List.mem_cons.1 he with rfl | he
        · exact ⟨_, List.mem_cons_self, rfl⟩
        · obtain ⟨S', h1, h2⟩ := ih e he
          exact ⟨S', List.mem_cons_of_mem _ h1, h2⟩
      · simp only [hk] at he
        obtain ⟨S', h1, h2⟩ := ih e he
        exact ⟨S', List.mem_cons_of_mem _ h1, h2⟩
    | hit r e he hm => exact ih
    | forget l hl => exact fun e he => ih e (hl e he)

theorem runGetE_ok {E : Eng} {db : Db} {inm : Option Str} {q : Str} {resp : Resp}
    (h : (runGetE E db inm q).2 = .ok resp) :
    ∃ plan, planText E db q = .ok plan ∧ isReadOnly plan = true ∧
      ((inm = some (planToEtag E plan) ∧ resp = { status := 304, body := [], etag := none }) ∨
       (inm ≠ some (planToEtag E plan) ∧ resp.status = 200 ∧ resp.etag = some (planToEtag E plan) ∧
        ∀ inm', inm' ≠ some (planToEtag E plan) → (runGetE E db inm' q).2 = .ok resp)) := by
  cases hp : planText E db q with
  | error e => simp [runGetE, hp] at h
  | ok plan =>
    refine ⟨plan, rfl, ?_⟩
    cases hr : isReadOnly plan with
    | false => simp [runGetE, hp, hr] at h
    | true =>
      refine ⟨rfl, ?_⟩
      by_cases hi : inm = some (planToEtag E plan)
      · left
        simp [runGetE, hp, hr, hi] at h
        exact ⟨hi, h.symm⟩
      · right
        have hone : ∀ inm', inm' ≠ some (planToEtag E plan) → (runGetE E db inm' q).2 = (runGetE E db inm q).2 := by
          intro inm' hi'
          simp [runGetE, hp, hr, hi, hi']
        refine ⟨hi, ?_, ?_, fun inm' hi' => by rw [hone inm' hi', h]⟩
        · simp only [runGetE, hp, hr, hi, if_false] at h
          simp only [Bool.true_eq_false, if_false] at h
          split at h
          · cases h
          · next db' ph hph =>
            injection h with h
            rw [← h]
            cases ph <;> simp only [execute]
            split <;> rfl
        · simp only [runGetE, hp, hr, hi, if_false] at h
          simp only [Bool.true_eq_false, if_false] at h
          split at h
          · cases h
          · injection h with h
            rw [← h]

/-- The answer to a GET is that of the handler (`handleGet`, C39–C43) to the query of the body, or of the
header if there is none in the body; it works on the database of the address and on no other. -/
theorem C114_handler (E : Eng) (pol : Policy) (cc : Str) (S : Dbs) (r : WebReq) (g : GetReq)
    (hg : g = ⟨r.auth, r.path, if r.body = none then r.queryHeader else r.body, r.ifNoneMatch⟩) :
    (serveGet E pol cc S r).2.resp = (handleGet E pol (S (r.db.getD "default".toList)) g).2 ∧
    (serveGet E pol cc S r).1 (r.db.getD "default".toList) =
      (handleGet E pol (S (r.db.getD "default".toList)) g).1 ∧
    ∀ d, d ≠ r.db.getD "default".toList → (serveGet E pol cc S r).1 d = S d := by
  have hgr : g = r.toGet := by
    rw [hg]
    unfold WebReq.toGet
    cases r.body <;> rfl
  subst hgr
  clear hg
  have hd : dbDefault = "default".toList := by decide +kernel
  have hrun : ∀ db inm q, (runGetE E db inm q).1 = (runGet E db inm q).1 ∧
      (withCacheControl cc (runGetE E db inm q).2).resp = (runGet E db inm q).2 := by
    intro db inm q
    unfold runGetE runGet
    cases hp : planText E db q with
    | error e => exact ⟨rfl, rfl⟩
    | ok plan =>
      dsimp only
      cases hr : isReadOnly plan with
      | false => exact ⟨rfl, rfl⟩
      | true =>
        simp only [Bool.true_eq_false, if_false]
        by_cases hi : inm = some (planToEtag E plan)
        · rw [if_pos hi, if_pos hi]; exact ⟨rfl, rfl⟩
        · rw [if_neg hi, if_neg hi]
          rcases hph : physical E db plan with ⟨db', e | ph⟩
          · exact ⟨rfl, rfl⟩
          · exact ⟨rfl, rfl⟩
  rw [← hd]
  unfold serveGet getRoute handleGet
  have hh : r.toGet.header = r.auth := rfl
  rw [hh]
  cases ha : getAuthz E pol r.auth with
  | error e => exact ⟨rfl, rfl, fun _ _ => rfl⟩
  | ok u =>
    dsimp only [layers, varyReply, corsReply]
    refine ⟨?_, ?_, fun d hd => by rw [if_neg hd]⟩
    · unfold cachedReadQuery
      cases hq : getQuery E r.toGet with
      | error e => rfl
      | ok q => exact (hrun _ _ _).2
    · rw [if_pos rfl]
      unfold cachedReadQuery
      cases hq : getQuery E r.toGet with
      | error e => rfl
      | ok q => exact (hrun _ _ _).1

/-- Every answer the cache gives was given by the server, while it is fresh, to a request for the same
address with the same `Authorization`, query, content type and origin; so only those who may read
get it. -/
theorem C114_no_leak (E : Eng) (pol : Policy) (cc : Str) (fresh : Str → Nat → Prop) (w : World)
    (h : Reached E pol cc fresh w) (r : WebReq) (e : Stored) (he : e ∈ w.kept) (hm : MayServe fresh e r w.now) :
    ∃ t S r', (t, S) ∈ w.past ∧ t ≤ w.now ∧ fresh cc (w.now - t) ∧
      e.ans = (serveGet E pol cc S r').2 ∧ e.ans.resp.status = 200 ∧
      r'.db = r.db ∧ r'.path = r.path ∧ r'.auth = r.auth ∧ r'.queryHeader = r.queryHeader ∧
      r'.contentType = r.contentType ∧ r'.origin = r.origin ∧ getAuthz E pol r.auth = .ok () := by
  obtain ⟨S, hS, ha⟩ := kept_genuine h e he
  obtain ⟨h1, h2, h3, h4, ⟨cc', h5, h6⟩, h7⟩ := hm
  cases hz : getAuthz E pol e.req.auth with
  | error er =>
    rw [ha] at h5
    simp [serveGet, getRoute, hz, layers, Rejected.answer] at h5
  | ok u =>
    have hv : e.ans.vary = varyNames := by rw [ha]; simp [serveGet, getRoute, hz, layers, varyReply]
    have hcc : cc' = cc := by
      have h8 := h5
      rw [ha] at h8
      simp only [serveGet, getRoute, hz, layers, varyReply, corsReply] at h8
      cases hq : (cachedReadQuery E (S (e.req.db.getD dbDefault)) e.req.toGet).2 with
      | error er => rw [hq] at h8; simp [withCacheControl] at h8
      | ok resp => rw [hq] at h8; simp [withCacheControl] at h8; exact h8.symm
    rw [hv] at h7
    have a1 := h7 hAuthorization (by simp [varyNames])
    have a2 := h7 hContentType (by simp [varyNames])
    have a3 := h7 hOrigin (by simp [varyNames])
    have a4 := h7 hQuery (by simp [varyNames])
    have b1 : ∀ x : WebReq, x.headerNamed hAuthorization = x.auth := fun x => rfl
    have b2 : ∀ x : WebReq, x.headerNamed hContentType = x.contentType := fun x => rfl
    have b3 : ∀ x : WebReq, x.headerNamed hOrigin = x.origin := fun x => rfl
    have b4 : ∀ x : WebReq, x.headerNamed hQuery = x.queryHeader := fun x => rfl
    rw [b1, b1] at a1
    rw [b2, b2] at a2
    rw [b3, b3] at a3
    rw [b4, b4] at a4
    exact ⟨e.time, S, e.req, hS, h4, hcc ▸ h6, ha, h3, h1, h2, a1.symm, a4.symm, a2.symm, a3.symm, by rw [a1, hz]⟩

theorem getQuery_same {E : Eng} {r r' : GetReq} {q q' : Str} (hpath : r.path = r'.path)
    (hinj : ∀ a b, E.hash a = E.hash b → a = b)
    (hsql : ∀ a b db, E.decode (E.hash a) = some b → ∃ e, planText E db b = .error e)
    (h : getQuery E r = .ok q) (h' : getQuery E r' = .ok q') :
    q = q' ∨ (∀ db, ∃ e, planText E db q = .error e) ∨ (∀ db, ∃ e, planText E db q' = .error e) := by
  have inv : ∀ {r : GetReq} {q : Str}, getQuery E r = .ok q →
      (E.hash q = upToDot r.path) ∨ (E.decode (upToDot r.path) = some q) := by
    intro r q h
    unfold getQuery at h
    cases hr : r.raw with
    | none =>
      rw [hr] at h
      dsimp only at h
      split at h
      · cases h
      · next q' hd => injection h with h; subst h; exact Or.inr hd
    | some raw =>
      rw [hr] at h
      dsimp only at h
      split at h
      · cases h
      · next q' hd =>
        split at h
        · cases h
        · next hn =>
          injection h with h
          subst h
          exact Or.inl (Classical.byContradiction fun hne => hn fun heq => hne heq.symm)
  rcases inv h with a | a <;> rcases inv h' with b | b
  · exact Or.inl (hinj _ _ (by rw [a, b, hpath]))
  · rw [← hpath, ← a] at b
    exact Or.inr (Or.inr fun db => hsql _ _ db b)
  · rw [hpath, ← b] at a
    exact Or.inr (Or.inl fun db => hsql _ _ db a)
  · rw [hpath, b] at a
    exact Or.inl (by injection a with a; exact a.symm)

/-- **The cache is transparent.**  What it gives for a request is what the server itself would have
answered to this very request in a state it was in while the answer is fresh — unless the server would
have refused the request with an error, because the query in its body is not the one of its address. -/
theorem C114_transparent (E : Eng) (pol : Policy) (cc : Str) (fresh : Str → Nat → Prop)
    (hinj : ∀ a b, E.hash a = E.hash b → a = b)
    (hsql : ∀ a b db, E.decode (E.hash a) = some b → ∃ e, planText E db b = .error e)
    (w : World) (h : Reached E pol cc fresh w) (r : WebReq) (e : Stored) (he : e ∈ w.kept)
    (hm : MayServe fresh e r w.now) :
    ∃ t S, (t, S) ∈ w.past ∧ t ≤ w.now ∧ fresh cc (w.now - t) ∧
      (handOut e r = (serveGet E pol cc S r).2 ∨ 400 ≤ (serveGet E pol cc S r).2.resp.status) := by
  obtain ⟨t, S, r', hS, ht, hf, ha, h200, hdb, hpath, hauth, hqh, hct, hor, hz⟩ :=
    C114_no_leak E pol cc fresh w h r e he hm
  refine ⟨t, S, hS, ht, hf, ?_⟩
  have key : ∀ x : WebReq, x.auth = r.auth → (serveGet E pol cc S x).2 =
      { withCacheControl cc (cachedReadQuery E (S (x.db.getD dbDefault)) x.toGet).2 with
        vary := varyNames, allowOrigin := x.origin } := by
    intro x hx
    simp [serveGet, getRoute, hx, hz, layers, varyReply, corsReply]
  rw [key r rfl]
  rw [key r' hauth] at ha
  cases hc' : (cachedReadQuery E (S (r'.db.getD dbDefault)) r'.toGet).2 with
  | error er =>
    rw [hc'] at ha
    rw [ha] at h200
    have h400 := (C43_error_status er).1
    simp only [withCacheControl] at h200
    omega
  | ok resp' =>
    rw [hc'] at ha
    rw [ha] at h200
    dsimp only [withCacheControl] at h200
    have hq' := hc'
    unfold cachedReadQuery at hq'
    cases hg' : getQuery E r'.toGet with
    | error er => rw [hg'] at hq'; cases hq'
    | ok q' =>
      rw [hg'] at hq'
      cases hg : getQuery E r.toGet with
      | error er =>
        right
        simp only [cachedReadQuery, hg, withCacheControl]
        exact (C43_error_status er).1
      | ok q =>
        obtain ⟨plan, hp, hro, hcase⟩ := runGetE_ok hq'
        rcases hcase with ⟨_, hbad⟩ | ⟨hne, _, hetag, hall⟩
        · rw [hbad] at h200; cases h200
        · rcases getQuery_same (r := r.toGet) (r' := r'.toGet) hpath.symm hinj hsql hg hg' with hqq | hbad | hbad
          · left
            subst hqq
            rw [hdb] at hall hp
            unfold handOut
            by_cases hi : r.ifNoneMatch = some (planToEtag E plan)
            · have hres : (cachedReadQuery E (S (r.db.getD dbDefault)) r.toGet).2 =
                  .ok { status := 304, body := [], etag := none } := by
                have : r.toGet.ifNoneMatch = some (planToEtag E plan) := hi
                simp [cachedReadQuery, hg, runGetE, hp, hro, this]
              rw [hres, ha]
              simp [hi, hetag, withCacheControl, hor]
            · have hres : (cachedReadQuery E (S (r.db.getD dbDefault)) r.toGet).2 = .ok resp' := by
                simp only [cachedReadQuery, hg]
                exact hall _ hi
              rw [hres, ha]
              simp [hi, hetag, withCacheControl, hor]
          · right
            obtain ⟨er, her⟩ := hbad (S (r.db.getD dbDefault))
            simp only [cachedReadQuery, hg, runGetE, her, withCacheControl]
            exact (C43_error_status _).1
          · obtain ⟨er, her⟩ := hbad (S (r'.db.getD dbDefault))
            rw [hp] at her
            cases her

/-- Only answers with status 200 or 304 tell caches to keep them; no error does, and no answer of the
other routes. -/
theorem C114_errors (E : Eng) (pol : Policy) (cc : Str) (S : Dbs) (r : WebReq) :
    (((serveGet E pol cc S r).2.cacheControl = some cc ∧
        ((serveGet E pol cc S r).2.resp.status = 200 ∨ (serveGet E pol cc S r).2.resp.status = 304)) ∨
      ((serveGet E pol cc S r).2.cacheControl = none ∧ 400 ≤ (serveGet E pol cc S r).2.resp.status)) ∧
    ∀ (origin : Option Str) (resp : Resp), (layers origin (.ok (plainAnswer resp))).1.cacheControl = none := by
  refine ⟨?_, fun _ _ => rfl⟩
  unfold serveGet getRoute
  cases ha : getAuthz E pol r.auth with
  | error e => exact Or.inr ⟨rfl, (C43_error_status e).1⟩
  | ok u =>
    dsimp only [layers, varyReply, corsReply]
    cases hc : (cachedReadQuery E (S (r.db.getD dbDefault)) r.toGet).2 with
    | error e => exact Or.inr ⟨rfl, (C43_error_status e).1⟩
    | ok resp =>
      refine Or.inl ⟨rfl, ?_⟩
      dsimp only [withCacheControl]
      have hq := hc
      unfold cachedReadQuery at hq
      cases hg : getQuery E r.toGet with
      | error er => rw [hg] at hq; cases hq
      | ok q =>
        rw [hg] at hq
        obtain ⟨plan, _, _, ⟨_, h⟩ | ⟨_, h, _⟩⟩ := runGetE_ok hq
        · exact Or.inr (by rw [h])
        · exact Or.inl h

/-- **C114 violated.** A query whose result breaks off with an error is answered with status 200, an
ETag and `Cache-Control`, so caches give the broken answer to everybody for as long as it is fresh. -/
theorem C114_violated (cc : Str) :
    let r : WebReq := ⟨none, ['s'], none, none, none, none, none, none⟩
    let a := (serveGet demoEng ⟨.any, .any⟩ cc (fun _ => demoDb) r).2
    a.resp.status = 200 ∧ a.cacheControl = some cc ∧ a.resp.body = [.ok [[1], [2]], .error ['b']] ∧
    MayServe (fun _ n => n ≤ 43200) ⟨r, a, 0⟩ r 43200 := by
  refine ⟨rfl, rfl, rfl, rfl, rfl, rfl, Nat.zero_le _, ⟨cc, rfl, Nat.le_refl _⟩, fun h _ => rfl⟩

/-- Whatever the server: every query that may be asked over GET and breaks off while its result is sent is answered with
status 200, an ETag and the `Cache-Control` of a whole answer. -/
theorem C114_violated_always (E : Eng) (pol : Policy) (cc : Str) (S : Dbs) (r : WebReq) (sql e : Str) (q : Q) (p : Plan)
    (ha : getAuthz E pol r.auth = .ok ()) (hq : getQuery E r.toGet = .ok sql)
    (hp : E.parse sql = .ok [.query q none]) (hpl : planQ (S (r.db.getD "default".toList)) q = .ok p)
    (hb : Except.error e ∈ E.stream (S (r.db.getD "default".toList)) p)
    (hm : r.toGet.ifNoneMatch ≠ some (planToEtag E (.query p))) :
    (serveGet E pol cc S r).2.resp.status = 200 ∧ Except.error e ∈ (serveGet E pol cc S r).2.resp.body ∧
      (serveGet E pol cc S r).2.resp.etag.isSome ∧ (serveGet E pol cc S r).2.cacheControl = some cc := by
  have hd : r.db.getD dbDefault = r.db.getD "default".toList := rfl
  simp only [serveGet, getRoute, ha, hd]
  generalize S (r.db.getD "default".toList) = db at hpl hb
  have hg : (cachedReadQuery E db r.toGet).2 =
      .ok { status := 200, body := E.stream db p, etag := some (planToEtag E (.query p)) } := by
    simp [cachedReadQuery, hq, runGetE, planText, hp, planStmt, hpl, Except.map, isReadOnly, hm, physical, execute]
  simp [hg, withCacheControl, layers, varyReply, corsReply, hb]

/-- The hypotheses of C114: the engine of the examples; two requests for the same query, one of them
with `If-None-Match`; the second is answered by the cache with 304. -/
example :
    let ask := fun inm => (⟨some ['d'], ['s'], none, none, none, none, some ['o'], inm⟩ : WebReq)
    let a := (serveGet demoEng ⟨.any, .off⟩ ['c'] (fun _ => demoDb) (ask none)).2
    (∀ x y, demoEng.hash x = demoEng.hash y → x = y) ∧
    (∀ x y db, demoEng.decode (demoEng.hash x) = some y → ∃ e, planText demoEng db y = .error e) ∧
    MayServe (fun _ n => n ≤ 60) ⟨ask none, a, 5⟩ (ask a.resp.etag) 50 ∧ a.resp.etag ≠ none ∧
    (handOut ⟨ask none, a, 5⟩ (ask a.resp.etag)).resp.status = 304 ∧
    (handOut ⟨ask none, a, 5⟩ (ask none)).resp.status = 200 ∧
    ¬ MayServe (fun _ n => n ≤ 60) ⟨ask none, a, 5⟩ (ask none) 66 := by
  refine ⟨fun x y h => by simpa [demoEng] using h, ?_, ?_, ?_, ?_, ?_, ?_⟩
  · intro x y db h
    simp only [demoEng, Option.some.injEq] at h
    subst h
    exact ⟨[], by simp [planText, demoEng]⟩
  · exact ⟨rfl, rfl, rfl, by decide, ⟨_, rfl, by decide⟩, by decide +kernel⟩
  · decide +kernel
  · decide +kernel
  · decide +kernel
  · rintro ⟨_, _, _, _, ⟨_, _, h⟩, _⟩
    revert h
    decide

/-! ## C115 -/

/-- What the client sees of the status. -/
def seenStatus (origin : Option Str) (r : Except Rejected Answer) : Nat := (layers origin r).1.resp.status

/-- A counter shows for every series the number of requests of this series: each request is counted
once and nothing else. -/
theorem C115_count {κ : Type} [DecidableEq κ] (l : List κ) (k : κ) :
    l.foldl bump (fun _ => 0) k = l.count k := by
  have gen : ∀ (l : List κ) (c : Counter κ), l.foldl bump c k = c k + l.count k := by
    intro l
    induction l with
    | nil => intro c; simp
    | cons x l ih =>
      intro c
      rw [List.foldl_cons, ih, List.count_cons]
      unfold bump
      by_cases h : k = x
      · subst h; simp; omega
      · have : ¬ (x == k) = true := by simpa using fun h' => h h'.symm
        simp [h, this]
  simpa using gen l (fun _ => 0)

/-- The status a request is counted with is the one the client gets, if and only if it is not a
refusal by an error of Seafowl's own before the handler runs (other than one with status 500). -/
theorem C115_status_partial (method : Str) (path : Bytes) (origin : Option Str) (r : Except Rejected Answer) :
    (httpSeries method path origin r).method = method ∧
    ((httpSeries method path origin r).status = seenStatus origin r ↔
      ∀ e, r = .error (.api e) → e.status = 500) := by
  refine ⟨rfl, ?_⟩
  rcases r with (e | s) | a
  · simp [httpSeries, seenStatus, layers, Rejected.answer, Rejected.warpStatus, errResp, eq_comm]
  · simp [httpSeries, seenStatus, layers, Rejected.answer, Rejected.warpStatus]
  · simp [httpSeries, seenStatus, layers, varyReply, corsReply]

/-- **C115 violated.** A request without the access token it needs is answered with 401 and counted
with 500, as if the server had failed. -/
theorem C115_violated_status (cc : Str) (S : Dbs) :
    let pol : Policy := ⟨.password ['#', 'y'], .off⟩
    let r : WebReq := ⟨none, ['s'], none, none, none, none, none, none⟩
    (serveGet demoEng pol cc S r).2.resp.status = 401 ∧
    (httpSeries "GET".toList (ascii "/q/s") none (getRoute demoEng pol cc S r).2).status = 500 := ⟨rfl, rfl⟩

theorem contains_append (pat a b : Bytes) : contains pat (a ++ (pat ++ b)) = true := by
  induction a with
  | nil =>
    rw [List.nil_append]
    cases hpb : pat ++ b with
    | nil =>
      have : pat = [] := (List.append_eq_nil_iff.1 hpb).1
      subst this; rfl
    | cons c t =>
      unfold contains
      rw [← hpb, List.isPrefixOf_iff_prefix.2 (List.prefix_append pat b)]
      rfl
  | cons c a ih =>
    rw [List.cons_append]
    unfold contains
    rw [ih, Bool.or_true]

theorem contains_iff (pat s : Bytes) : contains pat s = true ↔ ∃ a b, s = a ++ (pat ++ b) := by
  constructor
  · induction s with
    | nil =>
      intro h
      simp [contains] at h
      exact ⟨[], [], by simp [h]⟩
    | cons c t ih =>
      intro h
      unfold contains at h
      rcases Bool.or_eq_true_iff.1 h with h | h
      · obtain ⟨b, hb⟩ := List.isPrefixOf_iff_prefix.1 h
        exact ⟨[], b, by simp [hb]⟩
      · obtain ⟨a, b, hab⟩ := ih h
        exact ⟨c :: a, b, by simp [hab]⟩
  · rintro ⟨a, b, rfl⟩
    exact contains_append pat a b

/-- A path written out: a slash before every segment. -/
def slashed : List Bytes → Bytes
  | [] => []
  | s :: rest => 47 :: (s ++ slashed rest)

theorem slashed_split (p : Bytes) : slashed (splitSlash p) = 47 :: p := by
  induction p with
  | nil => rfl
  | cons c rest ih =>
    unfold splitSlash
    by_cases hc : c = 47
    · subst hc
      simp [slashed, ih]
    · rw [if_neg hc]
      cases hs : splitSlash rest with
      | nil => rw [hs] at ih; simp [slashed] at ih
      | cons s more =>
        rw [hs] at ih
        simp only [slashed, List.cons.injEq, true_and] at ih
        simp [slashed, ih]

theorem slashed_append (a b : List Bytes) : slashed (a ++ b) = slashed a ++ slashed b := by
  induction a with
  | nil => rfl
  | cons s a ih => simp [slashed, ih]

/-- A path that begins with a slash is its segments written out, perhaps with a slash at the end. -/
theorem path_segments (p : Bytes) : 47 :: p = slashed (segments (47 :: p)) ∨
    47 :: p = slashed (segments (47 :: p)) ++ [47] := by
  have h := slashed_split p
  unfold segments
  have hd : Routes.dropFirstSlash (47 :: p) = p := rfl
  rw [hd]
  unfold Routes.dropLastEmpty
  by_cases hl : (splitSlash p).getLast? = some []
  · rw [if_pos hl]
    right
    have : splitSlash p = (splitSlash p).dropLast ++ [[]] := by
      have hne : splitSlash p ≠ [] := by intro h0; rw [h0] at hl; cases hl
      rw [List.getLast?_eq_some_getLast hne] at hl
      injection hl with hl
      rw [← hl]
      exact (List.dropLast_concat_getLast hne).symm
    rw [this, slashed_append] at h
    rw [← h]
    simp [slashed]
  · rw [if_neg hl]
    exact Or.inl h.symm

theorem splitSlash_noSlash (p : Bytes) : ∀ s ∈ splitSlash p, 47 ∉ s := by
  induction p with
  | nil => intro s hs; simp [splitSlash] at hs; subst hs; simp
  | cons c rest ih =>
    intro s hs
    unfold splitSlash at hs
    by_cases hc : c = 47
    · rw [if_pos hc] at hs
      rcases List.mem_cons.1 hs with rfl | hs
      · simp
      · exact ih s hs
    · rw [if_neg hc] at hs
      cases hsp : splitSlash rest with
      | nil =>
        rw [hsp] at hs
        simp only [List.mem_cons, List.not_mem_nil, or_false] at hs
        subst hs
        simpa using fun h => hc h.symm
      | cons x more =>
        rw [hsp] at hs ih
        rcases List.mem_cons.1 hs with rfl | hs
        · intro h
          rcases List.mem_cons.1 h with h | h
          · exact hc h.symm
          · exact ih x List.mem_cons_self h
        · exact ih s (List.mem_cons_of_mem _ hs)

theorem segments_noSlash (p : Bytes) : ∀ s ∈ segments p, 47 ∉ s := by
  intro s hs
  unfold segments Routes.dropLastEmpty at hs
  split at hs
  · exact splitSlash_noSlash _ s (List.dropLast_subset _ hs)
  · exact splitSlash_noSlash _ s hs

/-- A slash-free text between two slashes is a segment. -/
theorem slashed_between (l : List Bytes) (hl : ∀ s ∈ l, 47 ∉ s) (x : Bytes) (hx : 47 ∉ x) (a b tail : Bytes)
    (ht : tail = [] ∨ tail = [47])
    (h : slashed l ++ tail = a ++ 47 :: (x ++ 47 :: b)) : x ∈ l := by
  have cut : ∀ (s t u v : Bytes), 47 ∉ s → 47 ∉ u → s ++ 47 :: t = u ++ 47 :: v → s = u ∧ t = v := by
    intro s
    induction s with
    | nil =>
      intro t u v _ hu he
      cases u with
      | nil => simp at he; exact ⟨rfl, he⟩
      | cons c u => simp at he; exact absurd he.1 (fun h' => hu (by simp [h']))
    | cons c s ih =>
      intro t u v hs hu he
      cases u with
      | nil => simp at he; exact absurd he.1 (fun h' => hs (by simp [h']))
      | cons c' u =>
        simp only [List.cons_append, List.cons.injEq] at he
        obtain ⟨h1, h2⟩ := ih t u v (fun h' => hs (by simp [h'])) (fun h' => hu (by simp [h'])) he.2
        exact ⟨by rw [he.1, h1], h2⟩
  induction l generalizing a with
  | nil =>
    exfalso
    have hlen := congrArg List.length h
    rcases ht with rfl | rfl <;> simp [slashed] at hlen <;> omega
  | cons s l ih =>
    have hs : 47 ∉ s := hl s List.mem_cons_self
    have hrest : ∀ s ∈ l, 47 ∉ s := fun s h => hl s (List.mem_cons_of_mem _ h)
    simp only [slashed, List.cons_append, List.append_assoc] at h
    -- the rest of the path begins with a slash, or is empty
    have hbeg : slashed l ++ tail = [] ∨ ∃ t, slashed l ++ tail = 47 :: t := by
      cases l with
      | nil => rcases ht with rfl | rfl <;> simp [slashed]
      | cons y l => right; exact ⟨_, rfl⟩
    cases a with
    | nil =>
      simp only [List.nil_append, List.cons.injEq, true_and] at h
      rcases hbeg with h0 | ⟨t, h0⟩
      · rw [h0, List.append_nil] at h
        exact absurd (by rw [h]; simp) hs
      · rw [h0] at h
        have := (cut s t x b hs hx h).1
        simp [this]
    | cons c a =>
      simp only [List.cons_append, List.cons.injEq] at h
      obtain ⟨_, h⟩ := h
      right
      -- `a` covers `s`
      have hcov : ∃ a', a = s ++ a' := by
        have hp1 : s <+: s ++ (slashed l ++ tail) := List.prefix_append _ _
        have hp2 : a <+: s ++ (slashed l ++ tail) := by rw [h]; exact List.prefix_append _ _
        rcases List.prefix_or_prefix_of_prefix hp1 hp2 with ⟨a', ha'⟩ | ⟨a', ha'⟩
        · exact ⟨a', ha'.symm⟩
        · cases a' with
          | nil => exact ⟨[], by simpa using ha'⟩
          | cons y a' =>
            exfalso
            rw [← ha', List.append_assoc] at h
            have := List.append_cancel_left h
            simp only [List.cons_append, List.cons.injEq] at this
            exact hs (by rw [← ha', this.1]; simp)
      obtain ⟨a', rfl⟩ := hcov
      rw [List.append_assoc] at h
      exact ih hrest a' (List.append_cancel_left h)

theorem ascii_upload : ascii "/upload/" = 47 :: (ascii "upload" ++ [47]) := by decide +kernel
theorem ascii_q : ascii "/q" = 47 :: ascii "q" := by decide +kernel
theorem noslash_upload : 47 ∉ ascii "upload" := by decide +kernel

/-- The route under which a request is counted is the one that answers it: `/upload` for an upload,
`/q` for a query unless one of the segments of its path is `upload`, and the path of the probe. -/
theorem C115_route_partial (m : Method) (p : Bytes) (tg : Target) (h : dispatch m (segments (47 :: p)) = .ok tg) :
    match tg with
    | .upload .. => routeLabel (47 :: p) = ascii "/upload"
    | .query _ | .read _ _ => ascii "upload" ∉ segments (47 :: p) → routeLabel (47 :: p) = ascii "/q"
    | .health => routeLabel (47 :: p) = 47 :: p := by
  have ho := Routes.C100_only m _ tg h
  have notUp : ascii "upload" ∉ segments (47 :: p) → contains (ascii "/upload/") (47 :: p) = false := by
    intro hno
    cases hc : contains (ascii "/upload/") (47 :: p) with
    | false => rfl
    | true =>
      exfalso
      obtain ⟨a, b, hab⟩ := (contains_iff _ _).1 hc
      rw [ascii_upload] at hab
      have hab' : 47 :: p = a ++ 47 :: (ascii "upload" ++ 47 :: b) := by rw [hab]; simp
      rcases path_segments p with hp | hp
      · exact hno (slashed_between _ (segments_noSlash _) _ noslash_upload a b [] (Or.inl rfl)
          (by rw [List.append_nil, ← hp, hab']))
      · exact hno (slashed_between _ (segments_noSlash _) _ noslash_upload a b [47] (Or.inr rfl)
          (by rw [← hp, hab']))
  have isQ : ascii "q" ∈ segments (47 :: p) → contains (ascii "/q") (47 :: p) = true := by
    intro hq
    obtain ⟨l1, l2, hl⟩ := List.append_of_mem hq
    rw [contains_iff]
    rcases path_segments p with hp | hp
    · rw [hp, hl, slashed_append]
      exact ⟨slashed l1, slashed l2, by rw [ascii_q]; simp [slashed]⟩
    · rw [hp, hl, slashed_append]
      exact ⟨slashed l1, slashed l2 ++ [47], by rw [ascii_q]; simp [slashed]⟩
  have label : ascii "q" ∈ segments (47 :: p) → ascii "upload" ∉ segments (47 :: p) →
      routeLabel (47 :: p) = ascii "/q" := by
    intro h1 h2
    unfold routeLabel
    rw [notUp h2, isQ h1]
    rfl
  cases tg with
  | read d x =>
    dsimp only at ho ⊢
    exact label (by rcases ho.2 with h | ⟨h, _⟩ <;> rw [h] <;> simp)
  | query d =>
    dsimp only at ho ⊢
    exact label (by rcases ho.2 with h | ⟨h, _⟩ <;> rw [h] <;> simp)
  | upload d s t =>
    dsimp only at ho ⊢
    have hc : contains (ascii "/upload/") (47 :: p) = true := by
      rw [contains_iff]
      rcases path_segments p with hp | hp <;> rcases ho.2 with h | ⟨h, _⟩ <;> rw [hp, h, ascii_upload]
      · exact ⟨47 :: d, s ++ 47 :: t, by simp [slashed]⟩
      · exact ⟨[], s ++ 47 :: t, by simp [slashed]⟩
      · exact ⟨47 :: d, s ++ 47 :: (t ++ [47]), by simp [slashed]⟩
      · exact ⟨[], s ++ 47 :: (t ++ [47]), by simp [slashed]⟩
    unfold routeLabel
    rw [hc]
    rfl
  | health =>
    dsimp only at ho ⊢
    rcases path_segments p with hp | hp <;> rcases ho.2 with h | h <;> rw [hp, h] <;> decide +kernel

/-- **C115 violated.** A query in a database named `upload` is counted as an upload. -/
theorem C115_violated_route :
    dispatch .post (segments (ascii "/upload/q")) = .ok (.query (ascii "upload")) ∧
    routeLabel (ascii "/upload/q") = ascii "/upload" := ⟨by rfl, by decide +kernel⟩

/-- Whatever the query and the method: everything asked of a database named `upload` is counted as an upload. -/
theorem C115_violated_route_always (p : Bytes) (x : Bytes) (rest : List Bytes)
    (h : segments (47 :: p) = ascii "upload" :: x :: rest) : routeLabel (47 :: p) = ascii "/upload" := by
  have hc : contains (ascii "/upload/") (47 :: p) = true := by
    rw [contains_iff, ascii_upload]
    rcases path_segments p with hp | hp <;> rw [hp, h]
    · exact ⟨[], x ++ slashed rest, by simp [slashed]⟩
    · exact ⟨[], x ++ slashed rest ++ [47], by simp [slashed]⟩
  unfold routeLabel
  rw [hc]
  rfl

/-- **C115 violated.** Paths the server does not know are labels of their own: requests of one client
can make any number of series. -/
theorem C115_violated_series (n : Nat) :
    dispatch .get (segments (47 :: List.replicate (n + 1) 122)) = .error 404 ∧
    routeLabel (47 :: List.replicate (n + 1) 122) = 47 :: List.replicate (n + 1) 122 ∧
    ∀ k, routeLabel (47 :: List.replicate (k + 1) 122) = routeLabel (47 :: List.replicate (n + 1) 122) → k = n := by
  have lab : ∀ n, routeLabel (47 :: List.replicate (n + 1) 122) = 47 :: List.replicate (n + 1) 122 := by
    intro n
    have no : ∀ c pat, c ≠ 122 → contains (47 :: c :: pat) (47 :: List.replicate (n + 1) 122) = false := by
      intro c pat hc
      cases h : contains (47 :: c :: pat) (47 :: List.replicate (n + 1) 122) with
      | false => rfl
      | true =>
        exfalso
        obtain ⟨a, b, hab⟩ := (contains_iff _ _).1 h
        have hmem : c ∈ List.replicate (n + 1) 122 := by
          cases a with
          | nil => simp only [List.nil_append, List.cons_append, List.cons.injEq, true_and] at hab; rw [hab]; simp
          | cons x a => simp only [List.cons_append, List.cons.injEq] at hab; rw [hab.2]; simp
        exact hc (List.eq_of_mem_replicate hmem)
    unfold routeLabel
    have h1 : ascii "/upload/" = 47 :: 117 :: ascii "pload/" := by decide +kernel
    have h2 : ascii "/q" = 47 :: 113 :: [] := by decide +kernel
    rw [h1, h2, no 117 _ (by decide), no 113 _ (by decide)]
    rfl
  refine ⟨?_, lab n, fun k h => ?_⟩
  · have hs : splitSlash (List.replicate (n + 1) 122) = [List.replicate (n + 1) 122] :=
      Routes.splitSlash_plain _ (by intro h; exact absurd (List.eq_of_mem_replicate h) (by decide))
    have : segments (47 :: List.replicate (n + 1) 122) = [List.replicate (n + 1) 122] := by
      show Routes.dropLastEmpty (splitSlash (List.replicate (n + 1) 122)) = _
      rw [hs]
      simp [Routes.dropLastEmpty, List.replicate_succ]
    rw [this]
    have hq : List.replicate (n + 1) 122 ≠ ascii "q" := by
      intro h; have := congrArg List.head? h; simp [List.replicate_succ] at this; revert this; decide +kernel
    have hh : List.replicate (n + 1) 122 ≠ ascii "healthz" := by
      intro h; have := congrArg List.head? h; simp [List.replicate_succ] at this; revert this; decide +kernel
    have hr : List.replicate (n + 1) 122 ≠ ascii "readyz" := by
      intro h; have := congrArg List.head? h; simp [List.replicate_succ] at this; revert this; decide +kernel
    simp [dispatch, Routes.getRoutes, Routes.postRoutes, Routes.readRoute, Routes.healthRoute, Routes.queryRoute,
      Routes.uploadRoute, hq, hh, hr]
  · rw [lab, lab] at h
    have := congrArg List.length h
    simpa using this

/-- The status of a gRPC call as the client gets it: from the header, or else from the trailer. -/
def GrpcAnswer.seen (a : GrpcAnswer) : Nat := a.header.getD a.trailer

/-- A gRPC call is counted under its path with the status the client gets, if and only if it does not
fail in the middle of its stream; a call without an answer counts as unknown (2). -/
theorem C115_grpc_partial (path : Str) (a : GrpcAnswer) :
    (grpcSeries path (.ok a)).1 = path ∧
    ((grpcSeries path (.ok a)).2 = a.seen ↔ (a.header = none → a.trailer = 0)) ∧
    grpcSeries path (.error ()) = (path, 2) := by
  refine ⟨?_, ?_, rfl⟩
  · cases h : a.header <;> simp [grpcSeries, h]
  · cases h : a.header <;> simp [grpcSeries, GrpcAnswer.seen, h, eq_comm]

/-- **C115 violated.** A query whose stream ends with an internal error (13) is counted as a success. -/
theorem C115_violated_grpc (path : Str) :
    (⟨none, 13⟩ : GrpcAnswer).seen = 13 ∧ grpcSeries path (.ok ⟨none, 13⟩) = (path, 0) := ⟨rfl, rfl⟩

/-- Three requests, two of them of one series. -/
example :
    let up := httpSeries "POST".toList (ascii "/upload/public/t") none (.ok (plainAnswer ⟨200, [], none⟩))
    let q := httpSeries "GET".toList (ascii "/db/q/SELECT") none (.ok (plainAnswer ⟨400, [], none⟩))
    [up, q, up].foldl bump (fun _ => 0) ⟨"POST".toList, ascii "/upload", 200⟩ = 2 ∧
    [up, q, up].foldl bump (fun _ => 0) ⟨"GET".toList, ascii "/q", 400⟩ = 1 := by
  constructor <;> decide +kernel

/-! ## C116 -/

/-- The headers the HTTP interface of Seafowl reads in queries and uploads, apart from `If-None-Match`. -/
def usedHeaders : List Str := ["authorization", "content-type", "x-seafowl-query"].map String.toList

/-- A page of any origin may send queries and uploads, with an access token and with the query in a header
or in a JSON body; browsers ask for no other method. -/
theorem C116_preflight (method : Str) (headers : List Str) :
    preflightOk method headers = true ↔
      (method = "GET".toList ∨ method = "POST".toList) ∧ ∀ h ∈ headers, h ∈ usedHeaders := by
  have : ∀ h, h ∈ corsHeaders ↔ h ∈ usedHeaders := by
    intro h
    simp only [corsHeaders, usedHeaders, List.map_cons, List.map_nil, List.mem_cons, List.not_mem_nil, or_false]
    constructor
    · rintro (h | h | h) <;> simp [h]
    · rintro (h | h | h) <;> simp [h]
  simp [preflightOk, corsMethods, this]

/-- A page can read the answer (it is marked for its origin, whatever that is) if and only if the server
did not refuse the request before its handler; and then `Vary` names the origin, so that no cache gives
it to another one. -/
theorem C116_readable_partial (o : Str) (r : Except Rejected Answer) :
    ((layers (some o) r).1.allowOrigin = some o ↔ ∃ a, r = .ok a) ∧
    ((layers (some o) r).1.allowOrigin ≠ none → "Origin".toList ∈ (layers (some o) r).1.vary) ∧
    (layers (some o) r).1.resp = match r with
      | .ok a => a.resp
      | .error (.api e) => errResp e
      | .error (.warp s) => ⟨s, [], none⟩ := by
  rcases r with (e | s) | a
  · simp [layers, Rejected.answer]
  · simp [layers, Rejected.answer]
  · refine ⟨by simp [layers, varyReply, corsReply], fun _ => ?_, rfl⟩
    simp [layers, varyReply, varyNames, hOrigin]

/-- For a GET request: exactly if the principal may read. -/
theorem C116_get_partial (E : Eng) (pol : Policy) (cc : Str) (S : Dbs) (r : WebReq) (o : Str) (ho : r.origin = some o) :
    (serveGet E pol cc S r).2.allowOrigin = some o ↔ getAuthz E pol r.auth = .ok () := by
  unfold serveGet getRoute
  rw [ho]
  cases getAuthz E pol r.auth with
  | error e => simp [layers, Rejected.answer]
  | ok u => simp [layers, varyReply, corsReply]

/-- **C116 violated.** A page that sends no token where one is needed is refused with 401, but cannot
see it: the answer is not marked for its origin. -/
theorem C116_violated (cc : Str) (S : Dbs) (o : Str) :
    let a := (serveGet demoEng ⟨.password ['#', 'y'], .off⟩ cc S ⟨none, ['s'], none, none, none, none, some o, none⟩).2
    a.resp.status = 401 ∧ a.allowOrigin = none ∧ a.vary = [] := ⟨rfl, rfl, rfl⟩

/-- With the token it can. -/
example (cc : Str) (o : Str) :
    let a := (serveGet demoEng ⟨.password ['#', 'y'], .off⟩ cc (fun _ => demoDb)
      ⟨none, ['s'], some ['B', 'e', 'a', 'r', 'e', 'r', ' ', 'y'], none, none, none, some o, none⟩).2
    a.resp.status = 200 ∧ a.allowOrigin = some o := by
  have h : getAuthz demoEng ⟨.password ['#', 'y'], .off⟩ (some ['B', 'e', 'a', 'r', 'e', 'r', ' ', 'y']) =
      .ok () := by
    have ht : trimBearer ['B', 'e', 'a', 'r', 'e', 'r', ' ', 'y'] = ['y'] := by
      rw [trimBearer, if_pos (by decide)]
      show trimBearer ['y'] = ['y']
      rw [trimBearer, if_neg (by decide)]
    simp only [getAuthz, headerToPrincipal, ht]
    rfl
  simp only [serveGet, getRoute, h]
  exact ⟨rfl, rfl⟩

end Seafowl.Front
