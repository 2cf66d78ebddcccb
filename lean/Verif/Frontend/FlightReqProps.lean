import Verif.Frontend.FlightReq
import Verif.Frontend.FlightProps
import Verif.Sync.WriterProps

/-!
# C112: the answer to a Flight request tells what became of it
-/

namespace Seafowl.Flight

set_option linter.unusedSimpArgs false

open Seafowl.Sync (World Env Msg Outcome step run)

variable {σ β : Type}

/-! ### specification -/

/-- A request that only asks for the sequence numbers: no rows and no sequence number. -/
def IsProbe (env : Env σ β) (c : Cmd) (bs : List β) : Prop := (∀ b ∈ bs, env.rows b = 0) ∧ c.sequence = none

/-- The sync message that a well-formed request carries. -/
def Carries (p : Put σ β) (m : Msg σ β) : Prop :=
  ∃ c u bs s, p.cmd = some c ∧ c.iceberg = false ∧ c.target = some u ∧ p.batches = .ok bs ∧
    (bs = [] → s = p.noSchema) ∧ (bs ≠ [] → p.schema = some s) ∧
    m = { url := u, iceberg := false, origin := c.origin, sequence := c.sequence, schema := s, batches := bs }

/-- A request that cannot be read: the command or the column descriptors make no sense. -/
def Malformed (p : Put σ β) : Prop :=
  p.cmd = none ∨ (p.cmd ≠ none ∧ p.schema = none ∧ ∃ b bs, p.batches = .ok (b :: bs))

/-- A message that does not fit what was taken before: another origin's transaction is open, or it would be a
transaction without rows. -/
def OutOfTurn (env : Env σ β) (acc : List (Msg σ β)) (m : Msg σ β) : Prop :=
  (∃ l, acc.getLast? = some l ∧ l.sequence = none ∧ l.origin ≠ m.origin) ∨
  ((∀ l, acc.getLast? = some l → l.sequence ≠ none) ∧ ∀ b ∈ m.batches, env.rows b = 0)

/-! ### lemmas -/

theorem rows_zero (env : Env σ β) (bs : List β) :
    Seafowl.Sync.rowsOfBatches env bs = 0 ↔ ∀ b ∈ bs, env.rows b = 0 := by
  unfold Seafowl.Sync.rowsOfBatches
  induction bs with
  | nil => simp
  | cons b bs ih => simp [ih]

theorem nonempty_false (env : Env σ β) (m : Msg σ β) : m.nonempty env = false ↔ ∀ b ∈ m.batches, env.rows b = 0 := by
  rw [← rows_zero]
  simp [Seafowl.Sync.Msg.nonempty]

/-- A request, case by case. -/
theorem put_cases (env : Env σ β) (W : World σ β) (flag : Bool) (p : Put σ β) (now : Nat) (lock : Bool) (outs : List Outcome) :
    (Malformed p ∧ doPut env W flag p now lock outs = (W, flag, .status .invalidArgument)) ∨
    (∃ n, p.cmd ≠ none ∧ p.batches = .error n ∧ doPut env W flag p now lock outs = (W, flag, .status (.stream n))) ∨
    (¬ Malformed p ∧ ∃ c bs, p.cmd = some c ∧ p.batches = .ok bs ∧ IsProbe env c bs ∧ doPut env W flag p now lock outs =
      (W, false, .ok ⟨true, W.w.originMemory c.origin, W.w.originDurable c.origin, flag⟩)) ∨
    (¬ Malformed p ∧ ∃ c bs, p.cmd = some c ∧ p.batches = .ok bs ∧ ¬ IsProbe env c bs ∧ (c.iceberg = true ∨ c.target = none) ∧
      doPut env W flag p now lock outs = (W, false, .status .internal)) ∨
    (¬ Malformed p ∧ ∃ c bs m, p.cmd = some c ∧ p.batches = .ok bs ∧ ¬ IsProbe env c bs ∧ Carries p m ∧ m.iceberg = false ∧
      m.batches = bs ∧ m.sequence = c.sequence ∧ m.origin = c.origin ∧
      doPut env W flag p now lock outs = ((step env W (.sync m now lock outs)).1, false,
        match (step env W (.sync m now lock outs)).2 with
        | .accepted a d => .ok ⟨true, a, d, flag⟩
        | .notAccepted => .ok ⟨false, none, none, flag⟩
        | .invalid _ => .status .invalidArgument
        | _ => .status .internal)) := by
  unfold doPut
  cases hc : p.cmd with
  | none => exact .inl ⟨.inl hc, rfl⟩
  | some c =>
    cases hb : p.batches with
    | error n => exact .inr (.inl ⟨n, by simp, rfl, rfl⟩)
    | ok bs =>
      have hschema : putSchema p bs = none → Malformed p := by
        intro h
        cases bs with
        | nil => simp [putSchema] at h
        | cons b bs => exact .inr ⟨by simp [hc], h, b, bs, hb⟩
      have hgood : ∀ s, putSchema p bs = some s → ¬ Malformed p := by
        rintro s h (h1 | ⟨-, h2, b, bs', h3⟩)
        · rw [hc] at h1; cases h1
        · rw [hb] at h3
          cases h3
          rw [putSchema, h2] at h
          cases h
      cases hs : putSchema p bs with
      | none => exact .inl ⟨hschema hs, by simp [hs]⟩
      | some s =>
        refine .inr (.inr ?_)
        have hg := hgood s hs
        simp only [hs, processCmd]
        by_cases hp : IsProbe env c bs
        · have : Seafowl.Sync.rowsOfBatches env bs = 0 ∧ c.sequence = none := ⟨(rows_zero env bs).2 hp.1, hp.2⟩
          rw [if_pos this]
          exact .inl ⟨hg, c, bs, rfl, rfl, hp, rfl⟩
        · have : ¬ (Seafowl.Sync.rowsOfBatches env bs = 0 ∧ c.sequence = none) := fun h => hp ⟨(rows_zero env bs).1 h.1, h.2⟩
          rw [if_neg this]
          cases hi : c.iceberg with
          | true => exact .inr (.inl ⟨hg, c, bs, rfl, rfl, hp, .inl hi, rfl⟩)
          | false =>
            cases ht : c.target with
            | none => exact .inr (.inl ⟨hg, c, bs, rfl, rfl, hp, .inr ht, rfl⟩)
            | some u =>
              refine .inr (.inr ⟨hg, c, bs, _, rfl, rfl, hp, ⟨c, u, bs, s, hc, hi, ht, hb, ?_, ?_, rfl⟩, rfl, rfl, rfl, rfl, ?_⟩)
              · rintro rfl; simp [putSchema] at hs; exact hs.symm
              · intro hne
                cases bs with
                | nil => exact absurd rfl hne
                | cons b bs => simpa [putSchema] using hs
              · simp only [step, Bool.false_eq_true, if_false]
                cases (Seafowl.Sync.processSync env W _ now lock outs).2 <;> rfl

theorem carries_unique {p : Put σ β} {m m' : Msg σ β} (h : Carries p m) (h' : Carries p m') : m = m' := by
  obtain ⟨c, u, bs, s, h1, -, h2, h3, h4, h5, rfl⟩ := h
  obtain ⟨c', u', bs', s', h1', -, h2', h3', h4', h5', rfl⟩ := h'
  rw [h1] at h1'; cases h1'
  rw [h2] at h2'; cases h2'
  rw [h3] at h3'; cases h3'
  by_cases hb : bs = []
  · rw [h4 hb, h4' hb]
  · have := (h5 hb).symm.trans (h5' hb)
    cases this
    rfl

theorem step_kinds (env : Env σ β) (W : World σ β) (m : Msg σ β) (now : Nat) (lock : Bool) (outs : List Outcome)
    (hi : m.iceberg = false) (hp : ¬ ((∀ b ∈ m.batches, env.rows b = 0) ∧ m.sequence = none)) :
    (∃ a d, (step env W (.sync m now lock outs)).2 = .accepted a d ∧ lock = true ∧ (step env W (.sync m now lock outs)).1.acc = W.acc ++ [m]) ∨
    (∃ e, (step env W (.sync m now lock outs)).2 = .invalid e ∧ lock = true ∧ (step env W (.sync m now lock outs)).1 = W) ∨
    ((step env W (.sync m now lock outs)).2 = .notAccepted ∧ lock = false ∧ (step env W (.sync m now lock outs)).1 = W) ∨
    ((step env W (.sync m now lock outs)).2 = .flushFailed ∧ lock = true ∧ (step env W (.sync m now lock outs)).1.acc = W.acc ++ [m]) := by
  have hp' : ¬ (Seafowl.Sync.rowsOfBatches env m.batches = 0 ∧ m.sequence = none) := fun h => hp ⟨(rows_zero env _).1 h.1, h.2⟩
  simp only [step, Seafowl.Sync.processSync, if_neg hp', hi, Bool.false_eq_true, if_false]
  cases lock with
  | false => simp
  | true =>
    simp only [Bool.true_eq_false, if_false]
    cases he : Seafowl.Sync.enqueue env W.w now m W.acc.length with
    | error e => simp
    | ok w1 =>
      simp only [true_and, and_true, reduceCtorEq, false_and, exists_const, or_false, false_or, and_false]
      cases (Seafowl.Sync.flush env w1 W.log now outs).2.2 <;> simp

/-! ### C112: DoPut -/

/-- **C112**: a result with `accepted: true` means that the changes have been taken, once, with the table, origin and
sequence number of the request (or that the request only asked for numbers). -/
theorem C112_put_accepted (env : Env σ β) (W W' : World σ β) (flag flag' : Bool) (p : Put σ β) (now : Nat) (lock : Bool)
    (outs : List Outcome) (r : PutResp) (h : doPut env W flag p now lock outs = (W', flag', .ok r)) (ha : r.accepted = true) :
    r.first = flag ∧ flag' = false ∧
    ((∃ c bs, p.cmd = some c ∧ p.batches = .ok bs ∧ IsProbe env c bs ∧ W' = W ∧ r.memory = W.w.originMemory c.origin ∧
        r.durable = W.w.originDurable c.origin) ∨
     (∃ m, Carries p m ∧ W'.acc = W.acc ++ [m] ∧
        step env W (.sync m now lock outs) = (W', .accepted r.memory r.durable))) := by
  rcases put_cases env W flag p now lock outs with ⟨-, e⟩ | ⟨n, -, -, e⟩ | ⟨-, c, bs, hc, hb, hp, e⟩ | ⟨-, c, bs, -, -, -, -, e⟩ |
    ⟨-, c, bs, m, hc, hb, hp, hm, hi, h1, h2, h3, e⟩
  · rw [e] at h; cases h
  · rw [e] at h; cases h
  · rw [e] at h; cases h
    exact ⟨rfl, rfl, .inl ⟨c, bs, hc, hb, hp, rfl, rfl, rfl⟩⟩
  · rw [e] at h; cases h
  · rw [e] at h
    have hk := step_kinds env W m now lock outs hi (by rw [h1, h2]; exact hp)
    rcases hk with ⟨a, d, h4, -, h5⟩ | ⟨e', h4, -, h5⟩ | ⟨h4, -, h5⟩ | ⟨h4, -, h5⟩
    · rw [h4] at h
      simp only [Prod.mk.injEq, Answer.ok.injEq] at h
      obtain ⟨rfl, rfl, rfl⟩ := h
      exact ⟨rfl, rfl, .inr ⟨m, hm, h5, Prod.ext rfl h4⟩⟩
    · rw [h4] at h; simp at h
    · rw [h4] at h
      simp only [Prod.mk.injEq, Answer.ok.injEq] at h
      obtain ⟨-, -, rfl⟩ := h
      cases ha
    · rw [h4] at h; simp at h

/-- **C112**: `accepted: false`, the status `invalid_argument` and errors of the stream mean that nothing has happened. -/
theorem C112_put_refused (env : Env σ β) (W W' : World σ β) (flag flag' : Bool) (p : Put σ β) (now : Nat) (lock : Bool)
    (outs : List Outcome) (a : Answer PutResp) (h : doPut env W flag p now lock outs = (W', flag', a))
    (ha : (∃ r, a = .ok r ∧ r.accepted = false) ∨ a = .status .invalidArgument ∨ ∃ n, a = .status (.stream n)) : W' = W := by
  rcases put_cases env W flag p now lock outs with ⟨-, e⟩ | ⟨n, -, -, e⟩ | ⟨-, c, bs, hc, hb, hp, e⟩ | ⟨-, c, bs, -, -, -, -, e⟩ |
    ⟨-, c, bs, m, hc, hb, hp, hm, hi, h1, h2, h3, e⟩
  · rw [e] at h; cases h; rfl
  · rw [e] at h; cases h; rfl
  · rw [e] at h; cases h; rfl
  · rw [e] at h; cases h; rfl
  · rw [e] at h
    have hk := step_kinds env W m now lock outs hi (by rw [h1, h2]; exact hp)
    rcases hk with ⟨a', d, h4, -, h5⟩ | ⟨e', h4, -, h5⟩ | ⟨h4, -, h5⟩ | ⟨h4, -, h5⟩
    · rw [h4] at h
      simp only [Prod.mk.injEq] at h
      obtain ⟨-, -, rfl⟩ := h
      simp at ha
    · exact (congrArg (·.1) h).symm.trans h5
    · exact (congrArg (·.1) h).symm.trans h5
    · rw [h4] at h
      simp only [Prod.mk.injEq] at h
      obtain ⟨-, -, rfl⟩ := h
      simp at ha

/-- **C112**: on every reachable state, `invalid_argument` is the answer exactly to requests that cannot be read or whose
message is out of turn, and `accepted: false` exactly to well-formed ones that waited too long. -/
theorem C112_put_invalid (env : Env σ β) (log0 : Seafowl.Sync.Log σ β) (ops : List (Seafowl.Sync.Op σ β)) (W : World σ β)
    (hW : W = run env (World.start log0) ops) (flag : Bool) (p : Put σ β) (now : Nat) (lock : Bool) (outs : List Outcome) :
    ((doPut env W flag p now lock outs).2.2 = .status .invalidArgument ↔
      Malformed p ∨ ∃ m, Carries p m ∧ lock = true ∧ ¬ ((∀ b ∈ m.batches, env.rows b = 0) ∧ m.sequence = none) ∧
        OutOfTurn env W.acc m) ∧
    ((∃ r, (doPut env W flag p now lock outs).2.2 = .ok r ∧ r.accepted = false) ↔
      ∃ m, Carries p m ∧ lock = false ∧ ¬ ((∀ b ∈ m.batches, env.rows b = 0) ∧ m.sequence = none)) := by
  have hnc : ∀ m, Carries p m → ¬ Malformed p := by
    rintro m ⟨c, u, bs, s, h1, -, -, h3, -, h5, -⟩ (h | ⟨-, h, b, bs', h'⟩)
    · rw [h1] at h; cases h
    · rw [h3] at h'
      cases h'
      rw [h5 (by simp)] at h; cases h
  rcases put_cases env W flag p now lock outs with ⟨hm, e⟩ | ⟨n, hn, hb, e⟩ | ⟨hm, c, bs, hc, hb, hp, e⟩ | ⟨hm, c, bs, hc, hb, hp, hbad, e⟩ |
    ⟨hmal, c, bs, m, hc, hb, hp, hm, hi, h1, h2, h3, e⟩
  · rw [e]
    refine ⟨⟨fun _ => .inl hm, fun _ => rfl⟩, ⟨(by rintro ⟨r, h, -⟩; cases h), ?_⟩⟩
    rintro ⟨m, hc, -⟩
    exact absurd hm (hnc m hc)
  · rw [e]
    have h0 : ∀ m, ¬ Carries p m := by
      rintro m ⟨c, u, bs, s, -, -, -, h3, -⟩
      rw [hb] at h3; cases h3
    refine ⟨⟨(by intro h; cases h), ?_⟩, ⟨(by rintro ⟨r, h, -⟩; cases h), ?_⟩⟩
    · rintro ((h | ⟨-, -, b, bs', h⟩) | ⟨m, h, -⟩)
      · exact absurd h hn
      · rw [hb] at h; cases h
      · exact absurd h (h0 m)
    · rintro ⟨m, h, -⟩; exact absurd h (h0 m)
  · rw [e]
    have h0 : ∀ m, Carries p m → (∀ b ∈ m.batches, env.rows b = 0) ∧ m.sequence = none := by
      rintro m ⟨c', u, bs', s, h1, -, -, h3, -, -, rfl⟩
      rw [hc] at h1; rw [hb] at h3; cases h1; cases h3
      exact hp
    refine ⟨⟨(by intro h; cases h), ?_⟩, ⟨(by rintro ⟨r, h, h'⟩; cases h; cases h'), ?_⟩⟩
    · rintro (h | ⟨m, h, -, h', -⟩)
      · exact absurd h hm
      · exact absurd (h0 m h) h'
    · rintro ⟨m, h, -, h'⟩; exact absurd (h0 m h) h'
  · rw [e]
    have h0 : ∀ m, ¬ Carries p m := by
      rintro m ⟨c', u, bs', s, h1, h2, h3, -⟩
      rw [hc] at h1; cases h1
      rcases hbad with hb | hb
      · rw [h2] at hb; cases hb
      · rw [h3] at hb; cases hb
    refine ⟨⟨(by intro h; cases h), ?_⟩, ⟨(by rintro ⟨r, h, -⟩; cases h), ?_⟩⟩
    · rintro (h | ⟨m, h, -⟩)
      · exact absurd h hm
      · exact absurd h (h0 m)
    · rintro ⟨m, h, -⟩; exact absurd h (h0 m)
  · rw [e]
    have hp' : ¬ ((∀ b ∈ m.batches, env.rows b = 0) ∧ m.sequence = none) := by rw [h1, h2]; exact hp
    have hk := step_kinds env W m now lock outs hi hp'
    have hex : lock = true → ((∃ e', (step env W (.sync m now lock outs)).2 = .invalid e') ↔ OutOfTurn env W.acc m) := by
      rintro rfl
      have hne : ¬ (m.nonempty env = false ∧ m.sequence = none) := fun h => hp' ⟨(nonempty_false env m).1 h.1, h.2⟩
      constructor
      · rintro ⟨e', he⟩
        rcases (Seafowl.Sync.C05_refusal_exact env log0 ops W hW m now outs hi hne e').1 he with ⟨-, h⟩ | ⟨-, h, h'⟩
        · exact .inl h
        · exact .inr ⟨h, (nonempty_false env m).1 h'⟩
      · rintro (h | ⟨h, h'⟩)
        · exact ⟨_, (Seafowl.Sync.C05_refusal_exact env log0 ops W hW m now outs hi hne _).2 (.inl ⟨rfl, h⟩)⟩
        · exact ⟨_, (Seafowl.Sync.C05_refusal_exact env log0 ops W hW m now outs hi hne _).2 (.inr ⟨rfl, h, (nonempty_false env m).2 h'⟩)⟩
    have hu : ∀ m', Carries p m' → m' = m := fun m' h => carries_unique h hm
    simp only
    rcases hk with ⟨a', d, h4, hl, -⟩ | ⟨e', h4, hl, -⟩ | ⟨h4, hl, -⟩ | ⟨h4, hl, -⟩
    · have hno : ¬ OutOfTurn env W.acc m := fun h => by
        obtain ⟨e', he⟩ := (hex hl).2 h
        rw [h4] at he; cases he
      rw [h4]
      refine ⟨⟨(by intro h; cases h), ?_⟩, ⟨(by rintro ⟨r, h, h'⟩; cases h; cases h'), ?_⟩⟩
      · rintro (h | ⟨m', h, -, -, h'⟩)
        · exact absurd h hmal
        · rw [hu m' h] at h'; exact absurd h' hno
      · rintro ⟨m', h, h', -⟩; rw [hl] at h'; cases h'
    · rw [h4]
      refine ⟨⟨fun _ => .inr ⟨m, hm, hl, hp', (hex hl).1 ⟨e', h4⟩⟩, fun _ => rfl⟩, ⟨(by rintro ⟨r, h, -⟩; cases h), ?_⟩⟩
      rintro ⟨m', h, h', -⟩; rw [hl] at h'; cases h'
    · rw [h4]
      refine ⟨⟨(by intro h; cases h), ?_⟩, ⟨fun _ => ⟨m, hm, hl, hp'⟩, fun _ => ⟨_, rfl, rfl⟩⟩⟩
      rintro (h | ⟨m', h, h', -⟩)
      · exact absurd h hmal
      · rw [hl] at h'; cases h'
    · have hno : ¬ OutOfTurn env W.acc m := fun h => by
        obtain ⟨e', he⟩ := (hex hl).2 h
        rw [h4] at he; cases he
      rw [h4]
      refine ⟨⟨(by intro h; cases h), ?_⟩, ⟨(by rintro ⟨r, h, -⟩; cases h), ?_⟩⟩
      · rintro (h | ⟨m', h, -, -, h'⟩)
        · exact absurd h hmal
        · rw [hu m' h] at h'; exact absurd h' hno
      · rintro ⟨m', h, h', -⟩; rw [hl] at h'; cases h'

/-- **C112**, `internal`: without effect if the target cannot be had (a location that makes no sense, an Iceberg table);
otherwise the changes have been taken although the answer is an error, namely if the flush after it failed.
(Missing: that an error means no effect; see `C112_violated_internal`.) -/
theorem C112_put_internal_partial (env : Env σ β) (W W' : World σ β) (flag flag' : Bool) (p : Put σ β) (now : Nat) (lock : Bool)
    (outs : List Outcome) (h : doPut env W flag p now lock outs = (W', flag', .status .internal)) :
    (W' = W ∧ ∃ c, p.cmd = some c ∧ (c.iceberg = true ∨ c.target = none)) ∨
    ∃ m, Carries p m ∧ W'.acc = W.acc ++ [m] ∧ step env W (.sync m now lock outs) = (W', .flushFailed) := by
  rcases put_cases env W flag p now lock outs with ⟨-, e⟩ | ⟨n, -, -, e⟩ | ⟨-, c, bs, hc, hb, hp, e⟩ | ⟨-, c, bs, hc, -, -, hbad, e⟩ |
    ⟨-, c, bs, m, hc, hb, hp, hm, hi, h1, h2, h3, e⟩
  · rw [e] at h; cases h
  · rw [e] at h; cases h
  · rw [e] at h; cases h
  · rw [e] at h; cases h
    exact .inl ⟨rfl, c, hc, hbad⟩
  · rw [e] at h
    have hk := step_kinds env W m now lock outs hi (by rw [h1, h2]; exact hp)
    rcases hk with ⟨a, d, h4, -, h5⟩ | ⟨e', h4, -, h5⟩ | ⟨h4, -, h5⟩ | ⟨h4, -, h5⟩
    · rw [h4] at h; simp at h
    · rw [h4] at h; simp at h
    · rw [h4] at h; simp at h
    · simp only [Prod.mk.injEq] at h
      obtain ⟨rfl, -, -⟩ := h
      exact .inr ⟨m, hm, h5, Prod.ext rfl h4⟩

/-- DoPut never panics. -/
theorem C112_put_no_panic (env : Env σ β) (W : World σ β) (flag : Bool) (p : Put σ β) (now : Nat) (lock : Bool)
    (outs : List Outcome) : (doPut env W flag p now lock outs).2.2 ≠ .panic := by
  rcases put_cases env W flag p now lock outs with ⟨-, e⟩ | ⟨n, -, -, e⟩ | ⟨-, c, bs, hc, hb, hp, e⟩ | ⟨-, c, bs, -, -, -, -, e⟩ |
    ⟨-, c, bs, m, hc, hb, hp, hm, hi, h1, h2, h3, e⟩
  all_goals rw [e]
  all_goals simp only [ne_eq, reduceCtorEq, not_false_eq_true]
  split <;> simp

/-! ### C112: queries -/

/-- What the query is to be run with: the schema of the header and the inlined metastore. -/
def PlannedAs {M τ : Type} (plan : Plan M τ) (q : String) (h : Header) (store : Option M) (s : τ) : Prop :=
  (h = .absent ∧ plan q none store = .ok s) ∨ ∃ sp, h = .text sp ∧ plan q (some sp) store = .ok s

theorem queryToStream_spec {M τ : Type} (plan : Plan M τ) (m : Results τ) (q : String) (id : Nat) (h : Header) (store : Option M) :
    (∃ s, PlannedAs plan q h store s ∧ queryToStream plan m q id h store = (m.insert id s, some id)) ∨
    ((∀ s, ¬ PlannedAs plan q h store s) ∧ queryToStream plan m q id h store = (m, none)) := by
  unfold queryToStream
  cases h with
  | garbled =>
    refine .inr ⟨?_, rfl⟩
    rintro s (⟨h, -⟩ | ⟨sp, h, -⟩) <;> cases h
  | absent =>
    cases hp : plan q none store with
    | ok s => exact .inl ⟨s, .inl ⟨rfl, hp⟩, rfl⟩
    | error e =>
      refine .inr ⟨?_, rfl⟩
      rintro s (⟨-, h⟩ | ⟨sp, h, -⟩)
      · rw [hp] at h; cases h
      · cases h
  | text sp =>
    cases hp : plan q (some sp) store with
    | ok s => exact .inl ⟨s, .inr ⟨sp, rfl, hp⟩, by simp [hp]⟩
    | error e =>
      refine .inr ⟨?_, by simp [hp]⟩
      rintro s (⟨h, -⟩ | ⟨sp', h, h'⟩)
      · cases h
      · cases h; rw [hp] at h'; cases h'

/-- **C112**: a ticket for a query leads to the result of this query, run in the schema the header names; without a
ticket nothing is kept.  Any failure is reported as `internal`. -/
theorem C112_query {M τ : Type} (plan : Plan M τ) (m m' : Results τ) (q : String) (id : Nat) (h : Header) (a : Answer Nat)
    (hr : getInfo plan m q id h = (m', a)) :
    (∃ s, PlannedAs plan q h none s ∧ a = .ok id ∧ (doGet m' id).2 = .ok s ∧ ∀ j, j ≠ id → (doGet m' j).2 = (doGet m j).2) ∨
    ((∀ s, ¬ PlannedAs plan q h none s) ∧ a = .status .internal ∧ m' = m) := by
  rcases queryToStream_spec plan m q id h none with ⟨s, hs, e⟩ | ⟨hs, e⟩
  · simp only [getInfo, e, infoAnswer, Prod.mk.injEq] at hr
    obtain ⟨rfl, rfl⟩ := hr
    refine .inl ⟨s, hs, rfl, ?_, fun j hj => ?_⟩
    · simp [doGet, remove_insert]
    · simp [doGet, remove_insert, hj.symm]
  · simp only [getInfo, e, infoAnswer, Prod.mk.injEq] at hr
    obtain ⟨rfl, rfl⟩ := hr
    exact .inr ⟨hs, rfl, rfl⟩

/-- **C112**, queries with a metastore: likewise if the list of schemas is given; what cannot be decoded is
`invalid_argument`.  (Missing: requests without the list, see below.) -/
theorem C112_inline_partial {M τ : Type} (plan : Plan M τ) (m m' : Results τ) (c : Inline M) (id : Nat) (h : Header) (a : Answer Nat)
    (hr : getInfoInline plan m c id h = (m', a)) :
    (c = .undecodable ∧ a = .status .invalidArgument ∧ m' = m) ∨ (∃ q, c = .query q none) ∨
    ∃ q st, c = .query q (some st) ∧
      ((∃ s, PlannedAs plan q h (some st) s ∧ a = .ok id ∧ (doGet m' id).2 = .ok s ∧ ∀ j, j ≠ id → (doGet m' j).2 = (doGet m j).2) ∨
       ((∀ s, ¬ PlannedAs plan q h (some st) s) ∧ a = .status .internal ∧ m' = m)) := by
  cases c with
  | undecodable =>
    simp only [getInfoInline, Prod.mk.injEq] at hr
    obtain ⟨rfl, rfl⟩ := hr
    exact .inl ⟨rfl, rfl, rfl⟩
  | query q st =>
    cases st with
    | none => exact .inr (.inl ⟨q, rfl⟩)
    | some st =>
      refine .inr (.inr ⟨q, st, rfl, ?_⟩)
      rcases queryToStream_spec plan m q id h (some st) with ⟨s, hs, e⟩ | ⟨hs, e⟩
      · simp only [getInfoInline, e, infoAnswer, Prod.mk.injEq] at hr
        obtain ⟨rfl, rfl⟩ := hr
        refine .inl ⟨s, hs, rfl, ?_, fun j hj => ?_⟩
        · simp [doGet, remove_insert]
        · simp [doGet, remove_insert, hj.symm]
      · simp only [getInfoInline, e, infoAnswer, Prod.mk.injEq] at hr
        obtain ⟨rfl, rfl⟩ := hr
        exact .inr ⟨hs, rfl, rfl⟩

/-- A ticket that was never issued, or was used before, is `not_found`. -/
theorem C112_get {τ : Type} (hist : List (Op τ)) (id : Nat) :
    (doGet (runOps [] hist) id).2 = .status .notFound ↔ fetchAfter hist id = none := by
  unfold doGet fetchAfter
  cases ((runOps [] hist).remove id).1 <;> simp

/-- **C112**: a result is handed out once; fetching it does not touch other results. -/
theorem C112_get_once {τ : Type} (m : Results τ) (id j : Nat) :
    (doGet (doGet m id).1 j).2 = if id = j then .status .notFound else (doGet m j).2 := by
  simp only [doGet, remove_remove]
  by_cases h : id = j
  · rw [if_pos h, if_pos h]
  · rw [if_neg h, if_neg h]

/-! ### violations -/

/-- **C112 is violated**: the changes are in the buffer, though the answer is an error; the flush that follows their
acceptance has failed.  A client that sends them again has them twice. -/
theorem C112_violated_internal :
    let p : Put Unit Nat := { cmd := some ⟨some "a", false, "o", some 1⟩, batches := .ok [500], schema := some (), noSchema := () }
    let r := doPut Seafowl.Sync.Demo.env (World.start fun _ => []) true p 0 true [.fail false]
    r.2.2 = .status .internal ∧ Seafowl.Sync.pending r.1.w "a" = [0] := by decide

/-- **C112 is violated**: a location that does not parse is the client's mistake, but reported as `internal`; and the
client never learns that it was the first request after a start. -/
theorem C112_violated_location :
    let p : Put Unit Nat := { cmd := some ⟨none, false, "o", some 1⟩, batches := .ok [5], schema := some (), noSchema := () }
    let r := doPut Seafowl.Sync.Demo.env (World.start fun _ => []) true p 0 true []
    r.2 = (false, .status .internal) := by decide

/-- Whatever the state: a location that makes no sense is reported as `internal`, and the client never learns that it was
the first request after a start. -/
theorem C112_violated_location_always (env : Env σ β) (W : World σ β) (flag : Bool) (p : Put σ β) (now : Nat) (lock : Bool)
    (outs : List Outcome) (c : Cmd) (bs : List β) (hc : p.cmd = some c) (ht : c.target = none) (hb : p.batches = .ok bs)
    (hp : ¬ IsProbe env c bs) (hm : ¬ Malformed p) :
    doPut env W flag p now lock outs = (W, false, .status .internal) := by
  rcases put_cases env W flag p now lock outs with ⟨h, -⟩ | ⟨n, -, h, -⟩ | ⟨-, c', bs', h1, h2, h3, -⟩ | ⟨-, _, _, -, -, -, -, e⟩ |
    ⟨-, c', bs', m, h1, -, -, h2, -⟩
  · exact absurd h hm
  · rw [hb] at h; cases h
  · rw [hc] at h1; cases h1; rw [hb] at h2; cases h2; exact absurd h3 hp
  · exact e
  · obtain ⟨c2, u, _, _, h3, -, h4, -⟩ := h2
    rw [hc] at h3; cases h3; rw [ht] at h4; cases h4

/-- **C112 is violated**: a query with a metastore whose list of schemas is left out panics. -/
theorem C112_violated_panic {M τ : Type} (plan : Plan M τ) (m : Results τ) (q : String) (id : Nat) (h : Header) :
    getInfoInline plan m (.query q none) id h = (m, .panic) := rfl

/-! ### examples -/

/-- A request that is taken; a second one out of turn; a third that waits too long; a garbled one. -/
example :
    let env := Seafowl.Sync.Demo.env
    let p : Put Unit Nat := { cmd := some ⟨some "a", false, "o", none⟩, batches := .ok [5], schema := some (), noSchema := () }
    let q : Put Unit Nat := { cmd := some ⟨some "a", false, "other", some 3⟩, batches := .ok [5], schema := some (), noSchema := () }
    let r := doPut env (World.start fun _ => []) true p 0 true []
    r.2 = (false, .ok ⟨true, none, none, true⟩) ∧
    (doPut env r.1 r.2.1 q 0 true []).2 = (false, .status .invalidArgument) ∧
    (doPut env r.1 r.2.1 q 0 false []).2 = (false, .ok ⟨false, none, none, false⟩) ∧
    (doPut env r.1 r.2.1 { q with cmd := none } 0 true []).2 = (false, .status .invalidArgument) ∧
    (doPut env r.1 r.2.1 { q with schema := none } 0 true []).2 = (false, .status .invalidArgument) ∧
    (doPut env r.1 r.2.1 { q with batches := .error 7 } 0 true []).2 = (false, .status (.stream 7)) := by decide

/-- A query in a schema and its ticket. -/
example :
    let plan : Plan Nat String := fun q sp st => if q = "bad" then .error () else .ok (q ++ sp.getD "public" ++ toString st.isSome)
    getInfo plan [] "q" 4 (.text "s") = ([(4, "qsfalse")], .ok 4) ∧ (doGet [(4, "qsfalse")] 4).2 = .ok "qsfalse" ∧
    (doGet [(4, "qsfalse")] 5).2 = .status .notFound ∧ getInfo plan [] "bad" 4 .absent = ([], .status .internal) ∧
    getInfoInline plan [] (.query "q" (some 1)) 4 .absent = ([(4, "qpublictrue")], .ok 4) := by
  decide +kernel

end Seafowl.Flight
