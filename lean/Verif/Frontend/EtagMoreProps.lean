/-
C42: exactly when the GET endpoint answers 304.
-/
import Verif.Frontend.EtagProps

set_option linter.unusedSimpArgs false

namespace Seafowl.Front

/-- Names of the tables a query mentions outside subqueries of expressions. -/
def Q.outer : Q → List Str
  | .table n => [n]
  | .const _ => []
  | .op _ q => q.outer
  | .join a b => a.outer ++ b.outer
  | .sub _ q _ => q.outer

/-- URI and version of the Delta tables among them. -/
def versions (db : Db) (q : Q) : List (Bytes × Nat) :=
  q.outer.filterMap fun n => match db.tables n with
    | some (.delta u v) => some (u, v)
    | _ => none

theorem scans_versions (db : Db) : ∀ (q : Q) (p : Plan), planQ db q = .ok p → p.scans = versions db q := by
  intro q
  induction q with
  | table n =>
    intro p hp
    simp only [planQ] at hp
    cases ht : db.tables n with
    | none => rw [ht] at hp; simp at hp
    | some t =>
      rw [ht] at hp
      cases t with
      | delta u v => injection hp with hp; subst hp; simp [Plan.scans, versions, Q.outer, ht]
      | other => injection hp with hp; subst hp; simp [Plan.scans, versions, Q.outer, ht]
  | const r =>
    intro p hp
    simp [planQ] at hp; subst hp; rfl
  | op f q ih =>
    intro p hp
    simp only [planQ] at hp
    cases hq : planQ db q with
    | error e => rw [hq] at hp; simp [Except.map] at hp
    | ok p' =>
      rw [hq] at hp; simp [Except.map] at hp; subst hp
      exact ih p' hq
  | join a b iha ihb =>
    intro p hp
    simp only [planQ] at hp
    cases ha : planQ db a with
    | error e => rw [ha] at hp; simp at hp
    | ok pa =>
      cases hb : planQ db b with
      | error e => rw [ha, hb] at hp; simp at hp
      | ok pb =>
        rw [ha, hb] at hp; simp at hp; subst hp
        simp only [Plan.scans, iha pa ha, ihb pb hb, versions, Q.outer, List.filterMap_append]
  | sub f q s ihq _ =>
    intro p hp
    simp only [planQ] at hp
    cases ha : planQ db q with
    | error e => rw [ha] at hp; simp at hp
    | ok pa =>
      cases hb : planQ db s with
      | error e => rw [ha, hb] at hp; simp at hp
      | ok pb =>
        rw [ha, hb] at hp; simp at hp; subst hp
        exact ihq pa ha

theorem runGet_304 {E : Eng} {db : Db} {t sql : Str} {q : Q} {p : Plan} (hs : E.parse sql = .ok [.query q none])
    (hp : planQ db q = .ok p) (ht : t = E.hashBytes (etagBytes p)) : (runGet E db (some t) sql).2.status = 304 := by
  have hpl : planText E db sql = .ok (.query p) := by
    unfold planText
    rw [hs]
    simp only [planStmt, hp, Except.map]
  unfold runGet
  rw [hpl]
  simp [isReadOnly, planToEtag, etagBytesL, ht]

theorem runGet_explain {E : Eng} {db : Db} {inm : Option Str} {sql : Str} {q : Q}
    (hs : E.parse sql = .ok [.explain false (.query q none)])
    (h : (runGet E db inm sql).2.etag ≠ none ∨ (runGet E db inm sql).2.status = 304) :
    ∃ p, planQ db q = .ok p ∧
      (∀ t, (runGet E db inm sql).2.etag = some t → t = E.hashBytes (etagBytes p)) ∧
      ((runGet E db inm sql).2.status = 304 → inm = some (E.hashBytes (etagBytes p))) := by
  have hst : ∀ e : ApiError, (errResp e).status ≠ 304 := by
    intro e; cases e <;> simp [errResp, ApiError.status]
  unfold runGet at h ⊢
  unfold planText at h ⊢
  rw [hs] at h ⊢
  simp only [planStmt] at h ⊢
  cases hp : planQ db q with
  | error e =>
    rw [hp] at h
    simp only [Except.map] at h
    rcases h with h | h
    · exact absurd rfl h
    · exact absurd h (hst _)
  | ok p =>
    refine ⟨p, rfl, ?_⟩
    simp only [Except.map, isReadOnly, planToEtag, etagBytesL, physical, execute, if_false, Bool.false_eq_true]
    by_cases hi : inm = some (E.hashBytes (etagBytes p))
    · simp [hi]
    · simp [hi]

/-- **C42 (EXPLAIN).** The same for EXPLAIN of a query: a client that is told 304 would get the explanation of the
same plan again.  Partial as `C42_partial`. -/
theorem C42_explain_partial (E : Eng) (d0 d1 : Db) (inm0 : Option Str) (sql : Str) (q : Q) (t : Str)
    (hinj : ∀ a b, E.hashBytes a = E.hashBytes b → a = b)
    (hs : E.parse sql = .ok [.explain false (.query q none)]) (hn : q.noSub)
    (h0 : AllDelta d0 q) (h1 : AllDelta d1 q)
    (ht : (runGet E d0 inm0 sql).2.etag = some t)
    (h304 : (runGet E d1 (some t) sql).2.status = 304) :
    ∃ p, planQ d0 q = .ok p ∧ planQ d1 q = .ok p := by
  obtain ⟨p0, e0, g0, -⟩ := runGet_explain hs (.inl (by rw [ht]; simp))
  obtain ⟨p1, e1, -, g1⟩ := runGet_explain hs (.inr h304)
  have hb : etagBytes p0 = etagBytes p1 := by
    apply hinj
    rw [← g0 t ht]
    have := g1 h304
    injection this
  rw [etagBytes_enc, etagBytes_enc] at hb
  have hsc := C42_bytes_injective _ _ (planQ_sub_ok d0 q p0 e0 h0) (planQ_sub_ok d1 q p1 e1 h1) hb
  have hp := (plan_of_scans d0 d1 q p0 p1 hn h0 h1 e0 e1).2 hsc
  subst hp
  exact ⟨p0, e0, e1⟩

/-- An engine with one text, the explanation of the join of two tables: a new version of a table is noticed. -/
example : (runGet { cacheEng with parse := fun _ => .ok [.explain false (.query (.join (.table ['a']) (.table ['b']))
      none)] } (twoTables 1 2) (some (etagOf (twoTables 1 1) ['j'])) []).2.status = 200 ∧
    (runGet { cacheEng with parse := fun _ => .ok [.explain false (.query (.join (.table ['a']) (.table ['b']))
      none)] } (twoTables 1 1) (some (etagOf (twoTables 1 1) ['j'])) []).2.status = 304 := by
  decide +kernel

/-- **C42 (what the ETag does not cover).** A client that sends back the ETag of a query is told 304 whenever the
Delta tables the query mentions outside subqueries of expressions are at the versions they were — whatever else has
changed: tables in subqueries, tables that are no Delta tables, the functions the query calls. -/
theorem C42_blind (E : Eng) (d0 d1 : Db) (inm0 : Option Str) (sql : Str) (q : Q) (t : Str) (p1 : Plan)
    (hs : E.parse sql = .ok [.query q none]) (ht : (runGet E d0 inm0 sql).2.etag = some t) (h1 : planQ d1 q = .ok p1)
    (hv : versions d0 q = versions d1 q) : (runGet E d1 (some t) sql).2.status = 304 := by
  obtain ⟨p0, hp0, ht0, -⟩ := runGet_plan hs (Or.inl (by rw [ht]; simp))
  refine runGet_304 hs h1 ?_
  rw [ht0 t ht, etagBytes_enc, etagBytes_enc, scans_versions d0 q p0 hp0, scans_versions d1 q p1 h1, hv]

/-- **C42 (exactly when 304 is given).** With a collision free hash, a client that sends back the ETag of a query is
told 304 exactly if the query can still be planned and the Delta tables it mentions outside subqueries are the same,
at the same versions. -/
theorem C42_304_iff (E : Eng) (d0 d1 : Db) (inm0 : Option Str) (sql : Str) (q : Q) (t : Str)
    (hinj : ∀ a b, E.hashBytes a = E.hashBytes b → a = b) (hs : E.parse sql = .ok [.query q none])
    (hu0 : ∀ x ∈ versions d0 q, UriOk x.1 x.2) (hu1 : ∀ x ∈ versions d1 q, UriOk x.1 x.2)
    (ht : (runGet E d0 inm0 sql).2.etag = some t) :
    (runGet E d1 (some t) sql).2.status = 304 ↔ (∃ p1, planQ d1 q = .ok p1) ∧ versions d0 q = versions d1 q := by
  constructor
  · intro h
    obtain ⟨p0, hp0, ht0, -⟩ := runGet_plan hs (Or.inl (by rw [ht]; simp))
    obtain ⟨p1, hp1, -, h304⟩ := runGet_plan hs (Or.inr h)
    have hb := hinj _ _ ((ht0 t ht).symm.trans (Option.some.inj (h304 h)))
    rw [etagBytes_enc, etagBytes_enc, scans_versions d0 q p0 hp0, scans_versions d1 q p1 hp1] at hb
    exact ⟨⟨p1, hp1⟩, C42_bytes_injective _ _ hu0 hu1 hb⟩
  · rintro ⟨⟨p1, hp1⟩, hv⟩
    exact C42_blind E d0 d1 inm0 sql q t p1 hs ht hp1 hv

/-- A case: a query over `a` with a subquery over `b`, before and after a write to `b`. -/
example (f : Nat) : versions (twoTables 1 1) (.sub f (.table ['a']) (.table ['b'])) =
      versions (twoTables 1 2) (.sub f (.table ['a']) (.table ['b'])) ∧
    versions (twoTables 1 1) (.table ['b']) ≠ versions (twoTables 1 2) (.table ['b']) ∧
    (planQ (twoTables 1 2) (.sub f (.table ['a']) (.table ['b']))).toOption.isSome := by
  refine ⟨rfl, by decide +kernel, by rfl⟩

end Seafowl.Front
