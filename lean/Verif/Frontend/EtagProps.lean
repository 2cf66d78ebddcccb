/-
C42: a 304 answer is only given for unchanged data.
-/
import Verif.Frontend.HttpProps

set_option linter.unusedSimpArgs false

namespace Seafowl.Front

/-! ### Specification -/

/-- Names of the tables a query mentions outside subqueries of expressions, and inside. -/
def Q.tables : Q → List Str
  | .table n => [n]
  | .const _ => []
  | .op _ q => q.tables
  | .join a b => a.tables ++ b.tables
  | .sub _ q s => q.tables ++ s.tables

/-- No expression of the query contains a subquery. -/
def Q.noSub : Q → Prop
  | .table _ => True
  | .const _ => True
  | .op _ q => q.noSub
  | .join a b => a.noSub ∧ b.noSub
  | .sub _ _ _ => False

/-- A table URI as Seafowl makes them: no NUL byte, at least eight bytes (it ends in a UUID), and a
version that fits seven bytes. -/
def UriOk (u : Bytes) (v : Nat) : Prop := 0 ∉ u ∧ 8 ≤ u.length ∧ v < 72057594037927936

/-- Every table the query mentions is a Delta table. -/
def AllDelta (db : Db) (q : Q) : Prop :=
  ∀ n ∈ q.tables, ∃ u v, db.tables n = some (.delta u v) ∧ UriOk u v

/-! ### The byte string determines the tables and versions -/

/-- The Delta scans of a plan, in visiting order (outside subqueries). -/
def Plan.scans : Plan → List (Bytes × Nat)
  | .delta u v => [(u, v)]
  | .other _ => []
  | .const _ => []
  | .op _ p => p.scans
  | .join a b => a.scans ++ b.scans
  | .sub _ p _ => p.scans

def enc (l : List (Bytes × Nat)) : Bytes := l.flatMap fun x => x.1 ++ le8 x.2

theorem etagBytes_enc (p : Plan) : etagBytes p = enc p.scans := by
  induction p with
  | delta u v => simp [etagBytes, enc, Plan.scans]
  | other n => rfl
  | const r => rfl
  | op f p ih => simpa [etagBytes, Plan.scans] using ih
  | join a b iha ihb => simp [etagBytes, Plan.scans, enc, List.flatMap_append] at *; rw [iha, ihb]
  | sub f p s ihp _ => simpa [etagBytes, Plan.scans] using ihp

theorem le8_inj {a b : Nat} (ha : a < 72057594037927936) (hb : b < 72057594037927936)
    (h : le8 a = le8 b) : a = b := by
  simp only [le8, List.cons.injEq, and_true] at h
  omega

/-- Each is a byte, and together they are the number. -/
theorem le8_value {v : Nat} (hv : v < 18446744073709551616) :
    (∀ b ∈ le8 v, b < 256) ∧ (le8 v).foldr (fun b n => b + 256 * n) 0 = v := by
  constructor
  · intro b hb
    simp only [le8, List.mem_cons, List.not_mem_nil, or_false] at hb
    omega
  · simp only [le8, List.foldr]
    omega

theorem le8_top {a : Nat} (ha : a < 72057594037927936) : (le8 a)[7]? = some 0 := by
  simp [le8]; omega

theorem uri_lt_false (u1 u2 : Bytes) (v1 v2 : Nat) (l1 : List (Bytes × Nat)) (r2 : Bytes)
    (h1 : UriOk u1 v1) (h2 : UriOk u2 v2) (hl : ∀ x ∈ l1, UriOk x.1 x.2)
    (h : u1 ++ (le8 v1 ++ enc l1) = u2 ++ (le8 v2 ++ r2)) (hlt : u1.length < u2.length) :
    False := by
  have l8 : ∀ v, (le8 v).length = 8 := fun v => rfl
  have nz : ∀ (u : Bytes) (i : Nat), 0 ∉ u → i < u.length → u[i]? ≠ some 0 := by
    intro u i hu hi he
    rw [List.getElem?_eq_getElem hi] at he
    injection he with he
    exact hu (he ▸ List.getElem_mem hi)
  have hget : ∀ i : Nat, (u1 ++ (le8 v1 ++ enc l1))[i]? = (u2 ++ (le8 v2 ++ r2))[i]? := by
    intro i; rw [h]
  -- the last byte of the first version
  have ha := hget (u1.length + 7)
  rw [List.getElem?_append_right (by omega), List.getElem?_append_left (by simp [l8])] at ha
  rw [show u1.length + 7 - u1.length = 7 by omega, le8_top h1.2.2] at ha
  by_cases hd : u1.length + 7 < u2.length
  · rw [List.getElem?_append_left hd] at ha
    exact nz u2 _ h2.1 hd ha.symm
  · -- the last byte of the second version
    have hb := hget (u2.length + 7)
    rw [List.getElem?_append_right (l₁ := u2) (by omega),
      List.getElem?_append_left (l₁ := le8 v2) (by simp [l8])] at hb
    rw [show u2.length + 7 - u2.length = 7 by omega, le8_top h2.2.2] at hb
    rw [List.getElem?_append_right (l₁ := u1) (by omega),
      List.getElem?_append_right (l₁ := le8 v1) (by simp [l8]; omega)] at hb
    rw [l8] at hb
    cases l1 with
    | nil => simp [enc] at hb
    | cons x rest =>
      have hx := hl x (by simp)
      have hlen : u2.length + 7 - u1.length - 8 < x.1.length := by have := hx.2.1; omega
      simp only [enc, List.flatMap_cons, List.append_assoc] at hb
      rw [List.getElem?_append_left hlen] at hb
      exact nz x.1 _ hx.1 hlen hb

/-- **C42 (key fact).** The bytes hashed into the ETag determine which table versions the plan
scans, in order. -/
theorem C42_bytes_injective : ∀ (a b : List (Bytes × Nat)), (∀ x ∈ a, UriOk x.1 x.2) →
    (∀ x ∈ b, UriOk x.1 x.2) → enc a = enc b → a = b := by
  intro a
  induction a with
  | nil =>
    intro b _ hb h
    cases b with
    | nil => rfl
    | cons y b =>
      have := congrArg List.length h
      simp [enc, le8] at this
  | cons x a ih =>
    intro b ha hb h
    cases b with
    | nil =>
      have := congrArg List.length h
      simp [enc, le8] at this
    | cons y b =>
      have hx := ha x (by simp)
      have hy := hb y (by simp)
      have ha' : ∀ z ∈ a, UriOk z.1 z.2 := fun z hz => ha z (by simp [hz])
      have hb' : ∀ z ∈ b, UriOk z.1 z.2 := fun z hz => hb z (by simp [hz])
      have h' : x.1 ++ (le8 x.2 ++ enc a) = y.1 ++ (le8 y.2 ++ enc b) := by
        simpa [enc, List.append_assoc] using h
      have hlen : x.1.length = y.1.length := by
        rcases Nat.lt_trichotomy x.1.length y.1.length with hc | hc | hc
        · exact (uri_lt_false _ _ _ _ _ _ hx hy ha' h' hc).elim
        · exact hc
        · exact (uri_lt_false _ _ _ _ _ _ hy hx hb' h'.symm hc).elim
      obtain ⟨e1, e2⟩ := List.append_inj h' hlen
      obtain ⟨e3, e4⟩ := List.append_inj e2 rfl
      have e5 := le8_inj hx.2.2 hy.2.2 e3
      have e6 := ih b ha' hb' e4
      have : x = y := Prod.ext e1 e5
      rw [this, e6]

/-! ### The theorem -/

theorem planQ_sub_ok (db : Db) : ∀ (q : Q) (p : Plan), planQ db q = .ok p → AllDelta db q →
    ∀ x ∈ p.scans, UriOk x.1 x.2 := by
  intro q
  induction q with
  | table n =>
    intro p hp hd x hx
    obtain ⟨u, v, h1, h2⟩ := hd n (by simp [Q.tables])
    simp only [planQ, h1] at hp
    injection hp with hp
    subst hp
    simp [Plan.scans] at hx
    subst hx
    exact h2
  | const r =>
    intro p hp _ x hx
    simp [planQ] at hp; subst hp; simp [Plan.scans] at hx
  | op f q ih =>
    intro p hp hd x hx
    simp only [planQ] at hp
    cases hq : planQ db q with
    | error e => rw [hq] at hp; simp [Except.map] at hp
    | ok p' =>
      rw [hq] at hp; simp [Except.map] at hp; subst hp
      exact ih p' hq hd x hx
  | join a b iha ihb =>
    intro p hp hd x hx
    simp only [planQ] at hp
    cases ha : planQ db a with
    | error e => rw [ha] at hp; simp at hp
    | ok pa =>
      cases hb : planQ db b with
      | error e => rw [ha, hb] at hp; simp at hp
      | ok pb =>
        rw [ha, hb] at hp; simp at hp; subst hp
        simp only [Plan.scans, List.mem_append] at hx
        rcases hx with hx | hx
        · exact iha pa ha (fun n hn => hd n (by simp [Q.tables, hn])) x hx
        · exact ihb pb hb (fun n hn => hd n (by simp [Q.tables, hn])) x hx
  | sub f q s ihq _ =>
    intro p hp hd x hx
    simp only [planQ] at hp
    cases ha : planQ db q with
    | error e => rw [ha] at hp; simp at hp
    | ok pa =>
      cases hb : planQ db s with
      | error e => rw [ha, hb] at hp; simp at hp
      | ok pb =>
        rw [ha, hb] at hp; simp at hp; subst hp
        exact ihq pa ha (fun n hn => hd n (by simp [Q.tables, hn])) x hx

/-- Plans of the same query over Delta tables with the same scans are the same plan. -/
theorem plan_of_scans (d0 d1 : Db) : ∀ (q : Q) (p0 p1 : Plan), q.noSub →
    AllDelta d0 q → AllDelta d1 q → planQ d0 q = .ok p0 → planQ d1 q = .ok p1 →
    p0.scans.length = p1.scans.length ∧ (p0.scans = p1.scans → p0 = p1) := by
  intro q
  induction q with
  | table n =>
    intro p0 p1 _ h0 h1 e0 e1
    obtain ⟨u0, v0, g0, -⟩ := h0 n (by simp [Q.tables])
    obtain ⟨u1, v1, g1, -⟩ := h1 n (by simp [Q.tables])
    simp only [planQ, g0] at e0
    simp only [planQ, g1] at e1
    injection e0 with e0
    injection e1 with e1
    subst e0; subst e1
    refine ⟨rfl, ?_⟩
    intro h
    simp [Plan.scans] at h
    rw [h.1, h.2]
  | const r =>
    intro p0 p1 _ _ _ e0 e1
    simp [planQ] at e0 e1
    subst e0; subst e1
    exact ⟨rfl, fun _ => rfl⟩
  | op f q ih =>
    intro p0 p1 hn h0 h1 e0 e1
    simp only [planQ] at e0 e1
    cases g0 : planQ d0 q with
    | error e => rw [g0] at e0; simp [Except.map] at e0
    | ok a0 =>
      cases g1 : planQ d1 q with
      | error e => rw [g1] at e1; simp [Except.map] at e1
      | ok a1 =>
        rw [g0] at e0; rw [g1] at e1
        simp [Except.map] at e0 e1
        subst e0; subst e1
        obtain ⟨i1, i2⟩ := ih a0 a1 hn h0 h1 g0 g1
        exact ⟨i1, fun h => by rw [i2 h]⟩
  | join a b iha ihb =>
    intro p0 p1 hn h0 h1 e0 e1
    simp only [planQ] at e0 e1
    have a0 : AllDelta d0 a := fun n hn => h0 n (by simp [Q.tables, hn])
    have a1 : AllDelta d1 a := fun n hn => h1 n (by simp [Q.tables, hn])
    have b0 : AllDelta d0 b := fun n hn => h0 n (by simp [Q.tables, hn])
    have b1 : AllDelta d1 b := fun n hn => h1 n (by simp [Q.tables, hn])
    cases ga0 : planQ d0 a with
    | error e => rw [ga0] at e0; simp at e0
    | ok pa0 =>
      cases gb0 : planQ d0 b with
      | error e => rw [ga0, gb0] at e0; simp at e0
      | ok pb0 =>
        cases ga1 : planQ d1 a with
        | error e => rw [ga1] at e1; simp at e1
        | ok pa1 =>
          cases gb1 : planQ d1 b with
          | error e => rw [ga1, gb1] at e1; simp at e1
          | ok pb1 =>
            rw [ga0, gb0] at e0; rw [ga1, gb1] at e1
            simp at e0 e1
            subst e0; subst e1
            obtain ⟨i1, i2⟩ := iha pa0 pa1 hn.1 a0 a1 ga0 ga1
            obtain ⟨j1, j2⟩ := ihb pb0 pb1 hn.2 b0 b1 gb0 gb1
            refine ⟨by simp [Plan.scans, i1, j1], fun h => ?_⟩
            obtain ⟨k1, k2⟩ := List.append_inj h i1
            rw [i2 k1, j2 k2]
  | sub f q s _ _ => intro p0 p1 hn; exact absurd hn id

theorem eval_same (d0 d1 : Db) (hf : d0.fn = d1.fn) : ∀ (q : Q) (p : Plan), q.noSub →
    AllDelta d0 q → planQ d0 q = .ok p →
    (∀ x ∈ p.scans, d0.content x.1 x.2 = d1.content x.1 x.2) → evalPlan d0 p = evalPlan d1 p := by
  intro q
  induction q with
  | table n =>
    intro p _ h0 e0 hc
    obtain ⟨u0, v0, g0, -⟩ := h0 n (by simp [Q.tables])
    simp only [planQ, g0] at e0
    injection e0 with e0
    subst e0
    exact hc (u0, v0) (by simp [Plan.scans])
  | const r =>
    intro p _ _ e0 _
    simp [planQ] at e0; subst e0; rfl
  | op f q ih =>
    intro p hn h0 e0 hc
    simp only [planQ] at e0
    cases g0 : planQ d0 q with
    | error e => rw [g0] at e0; simp [Except.map] at e0
    | ok a0 =>
      rw [g0] at e0; simp [Except.map] at e0; subst e0
      simp only [evalPlan]
      rw [ih a0 hn h0 g0 hc, hf]
  | join a b iha ihb =>
    intro p hn h0 e0 hc
    simp only [planQ] at e0
    cases ga0 : planQ d0 a with
    | error e => rw [ga0] at e0; simp at e0
    | ok pa0 =>
      cases gb0 : planQ d0 b with
      | error e => rw [ga0, gb0] at e0; simp at e0
      | ok pb0 =>
        rw [ga0, gb0] at e0; simp at e0; subst e0
        simp only [evalPlan]
        rw [iha pa0 hn.1 (fun n hn => h0 n (by simp [Q.tables, hn])) ga0
            (fun x hx => hc x (by simp [Plan.scans, hx])),
          ihb pb0 hn.2 (fun n hn => h0 n (by simp [Q.tables, hn])) gb0
            (fun x hx => hc x (by simp [Plan.scans, hx]))]
  | sub f q s _ _ => intro p hn; exact absurd hn id

theorem runGet_plan {E : Eng} {db : Db} {inm : Option Str} {sql : Str} {q : Q}
    (hs : E.parse sql = .ok [.query q none])
    (h : (runGet E db inm sql).2.etag ≠ none ∨ (runGet E db inm sql).2.status = 304) :
    ∃ p, planQ db q = .ok p ∧
      (∀ t, (runGet E db inm sql).2.etag = some t → t = E.hashBytes (etagBytes p)) ∧
      ((runGet E db inm sql).2.status = 304 → inm = some (E.hashBytes (etagBytes p))) := by
  have hst : ∀ e : ApiError, (errResp e).status ≠ 304 := by
    intro e; cases e <;> simp [errResp, ApiError.status]
  unfold runGet at h ⊢
  unfold planText at h ⊢
  rw [hs] at h ⊢
  simp only [planStmt] at h ⊢
  cases hp : planQ db q with
  | error e =>
    rw [hp] at h
    simp only [Except.map] at h
    rcases h with h | h
    · exact absurd rfl h
    · exact absurd h (hst _)
  | ok p =>
    refine ⟨p, rfl, ?_⟩
    simp only [Except.map, isReadOnly, planToEtag, etagBytesL, physical, execute]
    by_cases hi : inm = some (E.hashBytes (etagBytes p))
    · simp [hi]
    · simp [hi]

/-- **C42.** A client got ETag `t` for a query in one state and later sends it back.  If it is then
told `304 Not Modified`, the query has the same answer as before.  Partial: for a query without
subqueries in expressions, over Delta tables, whose functions were not redefined in between (the
three `C42_violated_…` theorems show that each is needed).  `hcont` is the immutability of a Delta
table version; `hinj` the collision freedom of the hash. -/
theorem C42_partial (E : Eng) (d0 d1 : Db) (inm0 : Option Str) (sql : Str) (q : Q) (t : Str)
    (hinj : ∀ a b, E.hashBytes a = E.hashBytes b → a = b)
    (hs : E.parse sql = .ok [.query q none]) (hn : q.noSub)
    (h0 : AllDelta d0 q) (h1 : AllDelta d1 q) (hf : d0.fn = d1.fn)
    (hcont : ∀ u v, d0.content u v = d1.content u v)
    (ht : (runGet E d0 inm0 sql).2.etag = some t)
    (h304 : (runGet E d1 (some t) sql).2.status = 304) :
    ∃ p, planQ d0 q = .ok p ∧ planQ d1 q = .ok p ∧ evalPlan d0 p = evalPlan d1 p := by
  obtain ⟨p0, e0, g0, -⟩ := runGet_plan hs (.inl (by rw [ht]; simp))
  obtain ⟨p1, e1, -, g1⟩ := runGet_plan hs (.inr h304)
  have hb : etagBytes p0 = etagBytes p1 := by
    apply hinj
    rw [← g0 t ht]
    have := g1 h304
    injection this
  rw [etagBytes_enc, etagBytes_enc] at hb
  have hsc := C42_bytes_injective _ _ (planQ_sub_ok d0 q p0 e0 h0) (planQ_sub_ok d1 q p1 e1 h1) hb
  have hp := (plan_of_scans d0 d1 q p0 p1 hn h0 h1 e0 e1).2 hsc
  subst hp
  exact ⟨p0, e0, e1, eval_same d0 d1 hf q p0 hn h0 e0 fun x _ => hcont x.1 x.2⟩

/-- **C42 (caching works).** Sending back the ETag while the tables the query scans are at the same
versions is answered with 304. -/
theorem C42_hit (E : Eng) (d0 d1 : Db) (inm0 : Option Str) (sql : Str) (q : Q) (t : Str)
    (hs : E.parse sql = .ok [.query q none]) (hsame : planQ d1 q = planQ d0 q)
    (ht : (runGet E d0 inm0 sql).2.etag = some t) :
    (runGet E d1 (some t) sql).2.status = 304 := by
  obtain ⟨p0, e0, g0, -⟩ := runGet_plan hs (.inl (by rw [ht]; simp))
  have htt := g0 t ht
  unfold runGet planText
  rw [hs]
  simp only [planStmt, hsame, e0, Except.map, isReadOnly, planToEtag, etagBytesL, htt]
  simp

/-- **C42 (the ETag is sent).** Every successful answer of the GET endpoint carries the ETag of the plan it
answers, and is only given if the client did not already have it. -/
theorem C42_sent (E : Eng) (db : Db) (inm : Option Str) (sql : Str)
    (h : (runGet E db inm sql).2.status = 200) :
    ∃ p, planText E db sql = .ok p ∧ (runGet E db inm sql).2.etag = some (planToEtag E p) ∧
      inm ≠ some (planToEtag E p) := by
  have hst : ∀ e : ApiError, (errResp e).status ≠ 200 := by
    intro e; cases e <;> simp [errResp, ApiError.status]
  unfold runGet at h ⊢
  cases hp : planText E db sql with
  | error e => rw [hp] at h; exact absurd h (hst _)
  | ok p =>
    rw [hp] at h
    refine ⟨p, rfl, ?_⟩
    simp only at h ⊢
    by_cases hr : isReadOnly p = false
    · rw [if_pos hr] at h
      exact absurd h (hst _)
    · rw [if_neg hr] at h ⊢
      by_cases hi : inm = some (planToEtag E p)
      · rw [if_pos hi] at h
        simp at h
      · rw [if_neg hi] at h ⊢
        refine ⟨?_, hi⟩
        cases hph : physical E db p with
        | mk db' res =>
          rw [hph] at h
          cases res with
          | error e => exact absurd h (hst _)
          | ok ph => rfl

/-- Two tables `a`, `b` at given versions; table contents name the version. -/
def twoTables (va vb : Nat) : Db where
  tables := fun t =>
    if t = ['a'] then some (.delta [9, 9, 9, 9, 9, 9, 9, 1] va)
    else if t = ['b'] then some (.delta [9, 9, 9, 9, 9, 9, 9, 2] vb)
    else if t = ['c'] then some .other else none
  content := fun u v => [[(u.getLast?.getD 0 : Nat), (v : Int)]]
  others := fun _ => [[5]]
  fn := fun _ r => r
  fn2 := fun _ r s => r ++ s

/-- An engine whose query texts are `j` (a join of a and b), `s` (a with a subquery on b), `o`
(another table) and `f` (a function of a). -/
def cacheEng : Eng where
  hash := id
  hashBytes := fun b => b.flatMap fun n => List.replicate n 'x' ++ ['y']
  decode := some
  parse := fun t =>
    if t = ['j'] then .ok [.query (.join (.table ['a']) (.table ['b'])) none]
    else if t = ['s'] then .ok [.query (.sub 0 (.table ['a']) (.table ['b'])) none]
    else if t = ['o'] then .ok [.query (.table ['c']) none]
    else if t = ['f'] then .ok [.query (.op 0 (.table ['a'])) none]
    else .error []
  check := fun _ _ => .ok ()
  apply := fun _ db => (db, none)
  dfRun := fun _ db => (db, none)
  stream := fun db p => [.ok (evalPlan db p)]

/-- The ETag of a query in a state. -/
def etagOf (db : Db) (sql : Str) : Str := ((runGet cacheEng db none sql).2.etag).getD []

/-- The answer of the join is the pairs of rows. -/
example (r s : List Int) (d : Db) (h : d.content [1] 1 = [r]) (h' : d.content [2] 1 = [s, r]) :
    evalPlan d (.join (.delta [1] 1) (.delta [2] 1)) = [r ++ s, r ++ r] := by
  simp [evalPlan, h, h']

/-- The plain case: a new version of `b` is noticed, an unchanged state is a hit. -/
example : (runGet cacheEng (twoTables 1 2) (some (etagOf (twoTables 1 1) ['j'])) ['j']).2.status = 200 ∧
    (runGet cacheEng (twoTables 1 1) (some (etagOf (twoTables 1 1) ['j'])) ['j']).2.status = 304 := by
  decide +kernel

/-- Its hypotheses hold for the join of the two tables. -/
example : AllDelta (twoTables 1 1) (.join (.table ['a']) (.table ['b'])) ∧
    (Q.join (.table ['a']) (.table ['b'])).noSub := by
  refine ⟨?_, trivial, trivial⟩
  intro n hn
  simp [Q.tables] at hn
  rcases hn with rfl | rfl
  · exact ⟨_, _, rfl, by decide, by decide, by decide⟩
  · exact ⟨_, _, rfl, by decide, by decide, by decide⟩

/-- **C42 violated (subquery).** A table that only occurs in a subquery of an expression is not
part of the ETag: after a write to `b` the client is still told 304, though the answer changed. -/
theorem C42_violated_subquery :
    (runGet cacheEng (twoTables 1 2) (some (etagOf (twoTables 1 1) ['s'])) ['s']).2.status = 304 ∧
    (runGet cacheEng (twoTables 1 2) none ['s']).2.body.map Except.toOption ≠
      (runGet cacheEng (twoTables 1 1) none ['s']).2.body.map Except.toOption := by
  decide +kernel

/-- **C42 violated (other tables).** Neither is the content of a table that is not a Delta table. -/
theorem C42_violated_external :
    (runGet cacheEng { twoTables 1 1 with others := fun _ => [[6]] }
      (some (etagOf (twoTables 1 1) ['o'])) ['o']).2.status = 304 ∧
    (runGet cacheEng { twoTables 1 1 with others := fun _ => [[6]] } none ['o']).2.body.map
      Except.toOption ≠ (runGet cacheEng (twoTables 1 1) none ['o']).2.body.map Except.toOption := by
  decide +kernel

/-- **C42 violated (functions).** Neither is the definition of a function the query calls. -/
theorem C42_violated_function :
    (runGet cacheEng { twoTables 1 1 with fn := fun _ _ => [] }
      (some (etagOf (twoTables 1 1) ['f'])) ['f']).2.status = 304 ∧
    (runGet cacheEng { twoTables 1 1 with fn := fun _ _ => [] } none ['f']).2.body.map
      Except.toOption ≠ (runGet cacheEng (twoTables 1 1) none ['f']).2.body.map Except.toOption := by
  decide +kernel

end Seafowl.Front
