import Verif.Context.Session

/-!
# C85, C86: statements that run at the same time do not mix up their tables
-/

namespace Seafowl.Session

/-! ### Specification -/

/-- Explicit versions are made known before they are looked up. -/
def Prepared (acts : List Act) : Prop :=
  ∀ (j : Nat) (t : String) (v : Nat), acts[j]? = some (.find (t, some v)) → ∃ j' : Nat, j' < j ∧ acts[j']? = some (.travel t v)

/-- The answer to a lookup is that of the metastore `c`, at a version committed before the end of the statement and not
older than those committed before its start, or at the explicit version. -/
def Right (c : Content) (before now : Nat → Nat) (n : Name) (res : Option (Nat × Nat)) : Prop :=
  res.map (·.1) = c n.1 ∧ ∀ p v, res = some (p, v) →
    match n.2 with
    | none => before p ≤ v ∧ v ≤ now p
    | some w => v = w

/-- The tables the metastore of a request has in a state of the server. -/
def Request.content (r : Request) (S : Sys) : Content :=
  match r.inline with
  | some c => c
  | none =>
    match r.scope with
    | .database c => S.server c
    | .shared | .searchPath => S.server "default"

/-! ### what a step changes -/

theorem found_fields (t : Th) (a : Act) (p v : Nat) : (t.found a p v).sess = t.sess ∧ (t.found a p v).cat = t.cat ∧
    (t.found a p v).inline = t.inline ∧ (t.found a p v).acts = t.acts ∧ (t.found a p v).listed = t.listed := by
  cases a <;> simp [Th.found]

theorem lookTh_fields (S : Sys) (t : Th) : (S.lookTh t).sess = t.sess ∧ (S.lookTh t).cat = t.cat ∧
    (S.lookTh t).inline = t.inline ∧ (S.lookTh t).acts = t.acts ∧ (S.lookTh t).listed = t.listed := by
  unfold Sys.lookTh
  split
  · simp
  · split
    · simp [Th.missing]
    · split
      · simp [Th.missing]
      · exact found_fields _ _ _ _
      · simp

/-- The threads after a step of thread `j`: only this one changes. -/
theorem step_threads (S : Sys) (j : Nat) (t : Th) (ht : S.threads[j]? = some t) :
    ∃ t1, (S.step j).threads = S.threads.set j t1 ∧ t1.sess = t.sess ∧ t1.cat = t.cat ∧ t1.inline = t.inline ∧
      t1.acts = t.acts ∧ (t1.listed = t.listed ∨ t1.listed = some (S.content t)) := by
  have hself : S.threads = S.threads.set j t := by
    obtain ⟨h1, h2⟩ := List.getElem?_eq_some_iff.mp ht
    rw [← h2, List.set_getElem_self]
  unfold Sys.step
  rw [ht]
  simp only
  split
  · exact ⟨_, rfl, rfl, rfl, rfl, rfl, .inr rfl⟩
  · exact ⟨_, rfl, rfl, rfl, rfl, rfl, .inl rfl⟩
  · obtain ⟨h1, h2, h3, h4, h5⟩ := lookTh_fields S t
    exact ⟨_, rfl, h1, h2, h3, h4, .inl h5⟩
  · exact ⟨_, rfl, rfl, rfl, rfl, rfl, .inl rfl⟩
  · split
    · exact ⟨t, hself, rfl, rfl, rfl, rfl, .inl rfl⟩
    · obtain ⟨h1, h2, h3, h4, h5⟩ := found_fields t _ _ _
      exact ⟨_, rfl, h1, h2, h3, h4, .inl h5⟩
  · split
    · exact ⟨_, rfl, rfl, rfl, rfl, rfl, .inl rfl⟩
    · exact ⟨_, rfl, rfl, rfl, rfl, rfl, .inl rfl⟩
  · exact ⟨t, hself, rfl, rfl, rfl, rfl, .inl rfl⟩
  · exact ⟨t, hself, rfl, rfl, rfl, rfl, .inl rfl⟩

theorem step_none (S : Sys) (j : Nat) (h : S.threads[j]? = none) : S.step j = S := by
  unfold Sys.step
  rw [h]

theorem apply_thread (S : Sys) (e : Ev) (i : Nat) (t : Th) (ht : S.threads[i]? = some t) :
    ∃ t1, (S.apply e).threads[i]? = some t1 ∧ t1.sess = t.sess ∧ t1.cat = t.cat ∧ t1.inline = t.inline ∧
      t1.acts = t.acts ∧ (t1.listed = t.listed ∨ t1.listed = some (S.content t)) := by
  have hi : i < S.threads.length := (List.getElem?_eq_some_iff.mp ht).1
  cases e with
  | admit r =>
    refine ⟨t, ?_, rfl, rfl, rfl, rfl, .inl rfl⟩
    simp only [Sys.apply, Sys.admit]
    split <;> rw [List.getElem?_append_left hi, ht]
  | step j =>
    simp only [Sys.apply]
    by_cases hj : j = i
    · subst hj
      obtain ⟨t1, h1, h2⟩ := step_threads S j t ht
      exact ⟨t1, by rw [h1, List.getElem?_set_self hi], h2⟩
    · refine ⟨t, ?_, rfl, rfl, rfl, rfl, .inl rfl⟩
      cases hu : S.threads[j]? with
      | none => rw [step_none S j hu, ht]
      | some u =>
        obtain ⟨t1, h1, _⟩ := step_threads S j u hu
        rw [h1, List.getElem?_set_ne hj, ht]
  | ddl cat c => exact ⟨t, ht, rfl, rfl, rfl, rfl, .inl rfl⟩
  | commit p => exact ⟨t, ht, rfl, rfl, rfl, rfl, .inl rfl⟩

theorem run_cons (S : Sys) (e : Ev) (es : List Ev) : S.run (e :: es) = (S.apply e).run es := rfl

theorem run_append (S : Sys) (a b : List Ev) : S.run (a ++ b) = (S.run a).run b := List.foldl_append

/-- A listing is the content of the metastore of the statement at some moment since. -/
theorem listed_moment (i : Nat) : ∀ (es : List Ev) (S : Sys) (t t' : Th), S.threads[i]? = some t →
    (S.run es).threads[i]? = some t' →
    t'.listed = t.listed ∨ ∃ a b, es = a ++ b ∧ t'.listed = some ((S.run a).content t)
  | [], S, t, t', h, h' => by
    simp only [Sys.run, List.foldl_nil] at h'
    rw [h] at h'
    simp only [Option.some.injEq] at h'
    exact .inl (by rw [h'])
  | e :: es, S, t, t', h, h' => by
    obtain ⟨t1, h1, _, hc, hin, _, hl⟩ := apply_thread S e i t h
    rw [run_cons] at h'
    have hcont : ∀ R : Sys, R.content t1 = R.content t := by intro R; unfold Sys.content; rw [hin, hc]
    rcases listed_moment i es (S.apply e) t1 t' h1 h' with h2 | ⟨a, b, rfl, h2⟩
    · rcases hl with hl | hl
      · exact .inl (h2.trans hl)
      · exact .inr ⟨[], e :: es, rfl, h2.trans hl⟩
    · exact .inr ⟨e :: a, b, rfl, by rw [h2, hcont, run_cons]⟩

/-! ### everything registered exists -/

/-- The catalog a pending load refers to. -/
def Pc.cat? : Pc → Option Nat
  | .load k _ => some k
  | .insert k _ _ => some k
  | _ => none

structure Inv (S : Sys) : Prop where
  reg : ∀ s n k, S.reg s n = some k → k < S.nextCat
  pend : ∀ (j : Nat) t k, S.threads[j]? = some t → t.pc.cat? = some k → k < S.nextCat
  sess : ∀ (j : Nat) t, S.threads[j]? = some t → t.sess < S.nextSess

theorem set_get {l : List α} {i j : Nat} {a b : α} (h : (l.set i a)[j]? = some b) :
    (i = j ∧ b = a) ∨ (i ≠ j ∧ l[j]? = some b) := by
  by_cases hij : i = j
  · subst hij
    have hlen : i < l.length := by
      have := (List.getElem?_eq_some_iff.mp h).1
      simpa using this
    rw [List.getElem?_set_self hlen] at h
    simp only [Option.some.injEq] at h
    exact .inl ⟨rfl, h.symm⟩
  · rw [List.getElem?_set_ne hij] at h
    exact .inr ⟨hij, h⟩

theorem found_cat (t : Th) (a : Act) (p v : Nat) : (t.found a p v).pc.cat? = none := by
  cases a <;> simp [Th.found, Pc.cat?]

theorem lookTh_cat (S : Sys) (t : Th) (k : Nat) (h : (S.lookTh t).pc.cat? = some k) : S.reg t.sess t.cat = some k := by
  unfold Sys.lookTh at h
  split at h
  · simp [Pc.cat?] at h
  · split at h
    · simp [Th.missing, Pc.cat?] at h
    · split at h
      · simp [Th.missing, Pc.cat?] at h
      · rw [found_cat] at h; simp at h
      · simp only [Pc.cat?, Option.some.injEq] at h
        subst h
        assumption

theorem inv_init (server : String → Content) (log : Nat → Nat) : Inv (Sys.init server log) :=
  ⟨by simp [Sys.init], by simp [Sys.init], by simp [Sys.init]⟩

/-- The pending catalog of a thread after its step. -/
theorem step_pend (S : Sys) (i : Nat) (t t1 : Th) (ht : S.threads[i]? = some t)
    (h1 : (S.step i).threads[i]? = some t1) (k : Nat) (hk : t1.pc.cat? = some k) :
    t.pc.cat? = some k ∨ S.reg t.sess t.cat = some k := by
  have hi : i < S.threads.length := (List.getElem?_eq_some_iff.mp ht).1
  unfold Sys.step at h1
  rw [ht] at h1
  simp only at h1
  split at h1
  · rw [List.getElem?_set_self hi] at h1
    simp only [Option.some.injEq] at h1; subst h1
    simp [Pc.cat?] at hk
  · rw [List.getElem?_set_self hi] at h1
    simp only [Option.some.injEq] at h1; subst h1
    simp [Pc.cat?] at hk
  · rw [List.getElem?_set_self hi] at h1
    simp only [Option.some.injEq] at h1; subst h1
    exact .inr (lookTh_cat S t k hk)
  · rename_i k' p hpc
    rw [List.getElem?_set_self hi] at h1
    simp only [Option.some.injEq] at h1; subst h1
    left
    rw [hpc]
    simpa [Pc.cat?] using hk
  · split at h1
    · rw [ht] at h1
      simp only [Option.some.injEq] at h1; subst h1
      exact .inl hk
    · rw [List.getElem?_set_self hi] at h1
      simp only [Option.some.injEq] at h1; subst h1
      rw [found_cat] at hk; simp at hk
  · split at h1
    · rw [List.getElem?_set_self hi] at h1
      simp only [Option.some.injEq] at h1; subst h1
      simp [Pc.cat?] at hk
    · rw [List.getElem?_set_self hi] at h1
      simp only [Option.some.injEq] at h1; subst h1
      simp [Pc.cat?] at hk
  · rw [ht] at h1
    simp only [Option.some.injEq] at h1; subst h1
    exact .inl hk
  · rw [ht] at h1
    simp only [Option.some.injEq] at h1; subst h1
    exact .inl hk

/-- What a step does to the registered catalogs. -/
theorem step_reg (S : Sys) (i : Nat) (t : Th) (ht : S.threads[i]? = some t) :
    ((S.step i).reg = S.reg ∧ (S.step i).nextCat = S.nextCat) ∨
    (∃ c, t.pc = .register c ∧ (S.step i).nextCat = S.nextCat + 1 ∧
      ((S.step i).reg = fun s n => if s = t.sess ∧ n = t.cat then some S.nextCat else S.reg s n) ∧
      ((S.step i).heap = fun k n => if k = S.nextCat then fresh c n else S.heap k n)) := by
  unfold Sys.step
  rw [ht]
  simp only
  split
  · exact .inl ⟨rfl, rfl⟩
  · rename_i c hpc
    exact .inr ⟨c, hpc, rfl, rfl, rfl⟩
  · exact .inl ⟨rfl, rfl⟩
  · exact .inl ⟨rfl, rfl⟩
  · split <;> exact .inl ⟨rfl, rfl⟩
  · split <;> exact .inl ⟨rfl, rfl⟩
  · exact .inl ⟨rfl, rfl⟩
  · exact .inl ⟨rfl, rfl⟩

theorem step_rest (S : Sys) (i : Nat) : (S.step i).nextSess = S.nextSess ∧ (S.step i).log = S.log ∧ (S.step i).server = S.server := by
  unfold Sys.step
  split
  · simp
  · split
    · simp
    · simp
    · simp
    · simp
    · split <;> simp
    · split <;> simp
    · simp
    · simp

theorem inv_step (S : Sys) (h : Inv S) (i : Nat) : Inv (S.step i) := by
  cases ht : S.threads[i]? with
  | none => rw [step_none S i ht]; exact h
  | some t =>
    obtain ⟨t1, hth, hse, _⟩ := step_threads S i t ht
    have hi : i < S.threads.length := (List.getElem?_eq_some_iff.mp ht).1
    have hreg := step_reg S i t ht
    have hmono : S.nextCat ≤ (S.step i).nextCat := by
      rcases hreg with ⟨_, h2⟩ | ⟨c, _, h2, _⟩ <;> omega
    have hself : (S.step i).threads[i]? = some t1 := by rw [hth, List.getElem?_set_self hi]
    refine ⟨?_, ?_, ?_⟩
    · intro s n k hk
      rcases hreg with ⟨h1, h2⟩ | ⟨c, _, h2, h1, _⟩
      · rw [h1] at hk; rw [h2]; exact h.reg s n k hk
      · rw [h1] at hk
        simp only at hk
        split at hk
        · simp only [Option.some.injEq] at hk; omega
        · have := h.reg s n k hk; omega
    · intro j u k hj hk
      rw [hth] at hj
      rcases set_get hj with ⟨rfl, rfl⟩ | ⟨_, hj⟩
      · rcases step_pend S i t u ht hself k hk with h1 | h1
        · have := h.pend i t k ht h1; omega
        · have := h.reg _ _ _ h1; omega
      · have := h.pend j u k hj hk; omega
    · intro j u hj
      rw [hth] at hj
      rw [(step_rest S i).1]
      rcases set_get hj with ⟨rfl, rfl⟩ | ⟨_, hj⟩
      · rw [hse]; exact h.sess i t ht
      · exact h.sess j u hj

/-- The new thread. -/
theorem admit_threads (S : Sys) (r : Request) : ∃ u, (S.admit r).threads = S.threads ++ [u] ∧ u.pc = .list ∧
    u.cat = r.scope.cat ∧ u.inline = r.inline ∧ u.acts = r.acts ∧ u.listed = none ∧ u.results = [] ∧ u.pos = 0 ∧
    (u.sess = 0 ∧ r.scope = .shared ∧ (S.admit r).nextSess = S.nextSess ∨
      u.sess = S.nextSess ∧ r.scope ≠ .shared ∧ (S.admit r).nextSess = S.nextSess + 1) ∧
    (S.admit r).reg = S.reg ∧ (S.admit r).heap = S.heap ∧ (S.admit r).nextCat = S.nextCat ∧ (S.admit r).log = S.log ∧
    (S.admit r).server = S.server := by
  unfold Sys.admit
  simp only
  split
  · rename_i h
    exact ⟨_, rfl, rfl, rfl, rfl, rfl, rfl, rfl, rfl, .inl ⟨rfl, h, rfl⟩, rfl, rfl, rfl, rfl, rfl⟩
  · rename_i h
    exact ⟨_, rfl, rfl, rfl, rfl, rfl, rfl, rfl, rfl, .inr ⟨rfl, h, rfl⟩, rfl, rfl, rfl, rfl, rfl⟩

theorem append_get {l : List α} {a b : α} {j : Nat} (h : (l ++ [a])[j]? = some b) :
    l[j]? = some b ∨ (j = l.length ∧ b = a) := by
  by_cases hj : j < l.length
  · rw [List.getElem?_append_left hj] at h; exact .inl h
  · rw [List.getElem?_append_right (by omega)] at h
    have : j - l.length = 0 := by
      have := (List.getElem?_eq_some_iff.mp h).1
      simp at this; omega
    rw [this] at h
    simp at h
    exact .inr ⟨by omega, h.symm⟩

theorem inv_apply (S : Sys) (h : Inv S) (hn : 0 < S.nextSess) (e : Ev) : Inv (S.apply e) ∧ 0 < (S.apply e).nextSess := by
  cases e with
  | admit r =>
    obtain ⟨u, h1, hpc, _, _, _, _, _, _, hs, hr, hh, hc, _⟩ := admit_threads S r
    simp only [Sys.apply]
    refine ⟨⟨?_, ?_, ?_⟩, ?_⟩
    · rw [hr, hc]; exact h.reg
    · intro j t k hj hk
      rw [h1] at hj
      rw [hc]
      rcases append_get hj with hj | ⟨_, rfl⟩
      · exact h.pend j t k hj hk
      · rw [hpc] at hk; simp [Pc.cat?] at hk
    · intro j t hj
      rw [h1] at hj
      rcases append_get hj with hj | ⟨_, rfl⟩
      · have := h.sess j t hj
        rcases hs with ⟨_, _, e⟩ | ⟨_, _, e⟩ <;> omega
      · rcases hs with ⟨e1, _, e⟩ | ⟨e1, _, e⟩ <;> omega
    · rcases hs with ⟨_, _, e⟩ | ⟨_, _, e⟩ <;> omega
  | step i => exact ⟨inv_step S h i, by rw [Sys.apply, (step_rest S i).1]; exact hn⟩
  | ddl cat c => exact ⟨⟨h.reg, h.pend, h.sess⟩, hn⟩
  | commit p => exact ⟨⟨h.reg, h.pend, h.sess⟩, hn⟩

theorem inv_run : ∀ (es : List Ev) (S : Sys), Inv S → 0 < S.nextSess → Inv (S.run es) ∧ 0 < (S.run es).nextSess
  | [], _, h, hn => ⟨h, hn⟩
  | e :: es, S, h, hn => by
    obtain ⟨h1, h2⟩ := inv_apply S h hn e
    exact inv_run es _ h1 h2

/-! ### a statement whose session nobody else uses -/

/-- The catalog `k` of thread `i` belongs to it alone and has the tables of the listing `c`. -/
structure Own (S : Sys) (i : Nat) (t : Th) (c : Content) (before : Nat → Nat) (k : Nat) : Prop where
  reg : S.reg t.sess t.cat = some k
  lt : k < S.nextCat
  alone : ∀ s n, S.reg s n = some k → s = t.sess
  pend : ∀ (j : Nat) u, S.threads[j]? = some u → j ≠ i → u.pc.cat? ≠ some k
  places : ∀ n, (S.heap k (n, none)).map (·.place) = c n
  vers : ∀ n p v, S.heap k (n, none) = some ⟨p, some v⟩ → before p ≤ v ∧ v ≤ S.log p
  explicit : ∀ n v e, S.heap k (n, some v) = some e → c n = some e.place ∧ e.ver = some v
  known : ∀ j n v, j < t.pos → t.acts[j]? = some (.travel n v) → S.heap k (n, some v) ≠ none
  none_ : ∀ n, (n, none) ∈ t.results → n.2 = none ∧ c n.1 = none
  some_ : ∀ n p v, (n, some (p, v)) ∈ t.results → S.heap k n = some ⟨p, some v⟩
  load : ∀ k' p, t.pc = .load k' p → k' = k ∧ ∃ a, t.acts[t.pos]? = some a ∧ S.heap k a.name = some ⟨p, none⟩
  insert : ∀ k' p v, t.pc = .insert k' p v → k' = k ∧ before p ≤ v ∧ v ≤ S.log p ∧
    ∃ a, t.acts[t.pos]? = some a ∧ S.heap k a.name = some ⟨p, none⟩
  put : ∀ p, t.pc = .put p → ∃ n v, t.acts[t.pos]? = some (.travel n v) ∧ c n = some p

/-- Before its catalog is registered a statement has looked up nothing. -/
def Early (t : Th) : Prop := t.results = [] ∧ t.pos = 0 ∧
  ((t.pc = .list ∧ t.listed = none) ∨ ∃ c, t.pc = .register c ∧ t.listed = some c)

def Good (S : Sys) (i : Nat) (t : Th) (before : Nat → Nat) : Prop :=
  (∀ p, before p ≤ S.log p) ∧
    (Early t ∨ ∃ c k, t.listed = some c ∧ Own S i t c before k ∧ t.pc ≠ .list ∧ ∀ c', t.pc ≠ .register c')

/-- A step of another thread in another session. -/
theorem good_other (S : Sys) (i j : Nat) (hij : j ≠ i) (t u : Th) (ht : S.threads[i]? = some t)
    (hu : S.threads[j]? = some u) (hs : u.sess ≠ t.sess) (before : Nat → Nat) (h : Good S i t before) :
    (S.step j).threads[i]? = some t ∧ Good (S.step j) i t before := by
  obtain ⟨u1, hth, _⟩ := step_threads S j u hu
  have hj : j < S.threads.length := (List.getElem?_eq_some_iff.mp hu).1
  have hself : (S.step j).threads[j]? = some u1 := by rw [hth, List.getElem?_set_self hj]
  obtain ⟨hb, h⟩ := h
  refine ⟨by rw [hth, List.getElem?_set_ne hij, ht], by rw [(step_rest S j).2.1]; exact hb, ?_⟩
  rcases h with h | ⟨c, k, hl, ho, hpc⟩
  · exact .inl h
  · refine .inr ⟨c, k, hl, ?_, hpc⟩
    have hheap : ∀ n, (S.step j).heap k n = S.heap k n := by
      intro n
      unfold Sys.step
      rw [hu]
      simp only
      split
      · rfl
      · simp only
        rw [if_neg]
        have := ho.lt
        omega
      · rfl
      · rfl
      · rename_i k' p v hpcu
        split
        · rfl
        · simp only [setHeap]
          rw [if_neg]
          rintro ⟨e, _⟩
          exact ho.pend j u hu hij (by rw [hpcu, e]; rfl)
      · split
        · rename_i k' ha hr
          simp only
          split
          · rfl
          · simp only [setHeap]
            rw [if_neg]
            rintro ⟨e, _⟩
            exact hs (ho.alone _ _ (e ▸ hr))
        · rfl
      · rfl
      · rfl
    have hreg := step_reg S j u hu
    have hlog := (step_rest S j).2.1
    refine ⟨?_, ?_, ?_, ?_, ?_, ?_, ?_, ?_, ho.none_, ?_, ?_, ?_, ho.put⟩
    · rcases hreg with ⟨h1, _⟩ | ⟨_, _, _, h1, _⟩
      · rw [h1]; exact ho.reg
      · rw [h1]
        simp only
        rw [if_neg (by intro e; exact hs e.1.symm)]
        exact ho.reg
    · have := ho.lt
      rcases hreg with ⟨_, h1⟩ | ⟨_, _, h1, _⟩ <;> omega
    · intro s n hk
      rcases hreg with ⟨h1, _⟩ | ⟨_, _, _, h1, _⟩
      · rw [h1] at hk; exact ho.alone s n hk
      · rw [h1] at hk
        simp only at hk
        split at hk
        · have := ho.lt
          simp only [Option.some.injEq] at hk
          omega
        · exact ho.alone s n hk
    · intro m w hw hm hk
      rw [hth] at hw
      rcases set_get hw with ⟨rfl, rfl⟩ | ⟨_, hw⟩
      · rcases step_pend S j u w hu hself k hk with h1 | h1
        · exact ho.pend j u hu hij h1
        · exact hs (ho.alone _ _ h1)
      · exact ho.pend m w hw hm hk
    · intro n; rw [hheap]; exact ho.places n
    · intro n p v; rw [hheap, hlog]; exact ho.vers n p v
    · intro n v e; rw [hheap]; exact ho.explicit n v e
    · intro m n v; rw [hheap]; exact ho.known m n v
    · intro n p v hm; rw [hheap]; exact ho.some_ n p v hm
    · intro k' p hp
      obtain ⟨h1, a, h2, h3⟩ := ho.load k' p hp
      exact ⟨h1, a, h2, by rw [hheap]; exact h3⟩
    · intro k' p v hp
      obtain ⟨h1, h4, h5, a, h2, h3⟩ := ho.insert k' p v hp
      exact ⟨h1, h4, by rw [hlog]; exact h5, a, h2, by rw [hheap]; exact h3⟩

/-- The statement itself looks up a name. -/
theorem own_look (S : Sys) (i : Nat) (t : Th) (c : Content) (before : Nat → Nat) (k : Nat) (ho : Own S i t c before k)
    (hp : Prepared t.acts) (S1 : Sys)
    (e1 : S1.reg = S.reg) (e2 : S1.heap = S.heap) (e3 : S1.nextCat = S.nextCat) (e4 : S1.log = S.log)
    (e5 : ∃ w, S1.threads = S.threads.set i w) : Own S1 i (S.lookTh t) c before k := by
  have hpend : ∀ (j : Nat) u, S1.threads[j]? = some u → j ≠ i → u.pc.cat? ≠ some k := by
    intro j u hu hj
    obtain ⟨w, e5⟩ := e5
    rw [e5] at hu
    rcases set_get hu with ⟨h, _⟩ | ⟨_, hu⟩
    · exact absurd h.symm hj
    · exact ho.pend j u hu hj
  have hmiss : ∀ a, t.acts[t.pos]? = some a → S.heap k a.name = none → a.name.2 = none ∧ c a.name.1 = none := by
    intro a ha hn
    have hpl : ∀ n, S.heap k (n, none) = none → c n = none := by
      intro n h1
      rw [← ho.places n, h1]; rfl
    cases a with
    | travel n v => exact ⟨rfl, hpl n hn⟩
    | find n =>
      obtain ⟨n, v⟩ := n
      cases v with
      | none => exact ⟨rfl, hpl n hn⟩
      | some v =>
        obtain ⟨j', hj, ht⟩ := hp _ _ _ ha
        exact absurd hn (ho.known j' n v hj ht)
  obtain ⟨f1, f2, f3, f4, f5⟩ := lookTh_fields S t
  have hreg := ho.reg
  unfold Sys.lookTh at *
  rw [hreg] at *
  simp only at *
  split
  · -- nothing left
    refine ⟨by rw [e1]; exact ho.reg, by rw [e3]; exact ho.lt, by rw [e1]; exact ho.alone, hpend, by rw [e2]; exact ho.places,
      by rw [e2, e4]; exact ho.vers, by rw [e2]; exact ho.explicit, by rw [e2]; exact ho.known, ho.none_,
      by rw [e2]; exact ho.some_, ?_, ?_, ?_⟩ <;> simp
  · rename_i a ha
    split
    · rename_i hn
      refine ⟨by rw [e1]; exact ho.reg, by rw [e3]; exact ho.lt, by rw [e1]; exact ho.alone, hpend, by rw [e2]; exact ho.places,
        by rw [e2, e4]; exact ho.vers, by rw [e2]; exact ho.explicit, by rw [e2]; exact ho.known, ?_, ?_, ?_, ?_, ?_⟩
      · intro n hm
        simp only [Th.missing, List.mem_append, List.mem_singleton, Prod.mk.injEq] at hm
        rcases hm with hm | ⟨rfl, _⟩
        · exact ho.none_ n hm
        · exact hmiss a ha hn
      · intro n p v hm
        simp only [Th.missing, List.mem_append, List.mem_singleton, Prod.mk.injEq] at hm
        rw [e2]
        rcases hm with hm | ⟨_, h⟩
        · exact ho.some_ n p v hm
        · simp at h
      · simp [Th.missing]
      · simp [Th.missing]
      · simp [Th.missing]
    · rename_i p v hv
      cases a with
      | find n =>
        refine ⟨by rw [e1]; exact ho.reg, by rw [e3]; exact ho.lt, by rw [e1]; exact ho.alone, hpend, by rw [e2]; exact ho.places,
          by rw [e2, e4]; exact ho.vers, by rw [e2]; exact ho.explicit, ?_, ?_, ?_, ?_, ?_, ?_⟩
        · intro j m w hj hm
          simp only [Th.found] at hj hm
          rw [e2]
          by_cases h : j = t.pos
          · rw [h, ha] at hm; simp at hm
          · exact ho.known j m w (by omega) hm
        · intro m hm
          simp only [Th.found, List.mem_append, List.mem_singleton, Prod.mk.injEq] at hm
          rcases hm with hm | ⟨_, h⟩
          · exact ho.none_ m hm
          · simp at h
        · intro m q w hm
          simp only [Th.found, List.mem_append, List.mem_singleton, Prod.mk.injEq, Option.some.injEq] at hm
          rw [e2]
          rcases hm with hm | ⟨rfl, rfl, rfl⟩
          · exact ho.some_ m q w hm
          · exact hv
        · simp [Th.found]
        · simp [Th.found]
        · simp [Th.found]
      | travel n w =>
        refine ⟨by rw [e1]; exact ho.reg, by rw [e3]; exact ho.lt, by rw [e1]; exact ho.alone, hpend, by rw [e2]; exact ho.places,
          by rw [e2, e4]; exact ho.vers, by rw [e2]; exact ho.explicit, by rw [e2]; exact ho.known, ho.none_,
          by rw [e2]; exact ho.some_, ?_, ?_, ?_⟩
        · simp [Th.found]
        · simp [Th.found]
        · intro q hq
          simp only [Th.found, Pc.put.injEq] at hq
          subst hq
          refine ⟨n, w, ha, ?_⟩
          rw [← ho.places n]
          simp only [Act.name] at hv
          rw [hv]; rfl
    · rename_i p hv
      refine ⟨by rw [e1]; exact ho.reg, by rw [e3]; exact ho.lt, by rw [e1]; exact ho.alone, hpend, by rw [e2]; exact ho.places,
        by rw [e2, e4]; exact ho.vers, by rw [e2]; exact ho.explicit, by rw [e2]; exact ho.known, ho.none_,
        by rw [e2]; exact ho.some_, ?_, ?_, ?_⟩
      · intro k' q hq
        simp only [Pc.load.injEq] at hq
        obtain ⟨rfl, rfl⟩ := hq
        exact ⟨rfl, a, ha, by rw [e2]; exact hv⟩
      · simp
      · simp

theorem lookTh_pc (S : Sys) (t : Th) : (S.lookTh t).pc ≠ .list ∧ ∀ c, (S.lookTh t).pc ≠ .register c := by
  unfold Sys.lookTh
  split
  · simp
  · rename_i a ha
    split
    · simp [Th.missing]
    · split
      · simp [Th.missing]
      · cases a <;> simp [Th.found]
      · simp

/-- Its own step. -/
theorem good_self (S : Sys) (hI : Inv S) (i : Nat) (t : Th) (ht : S.threads[i]? = some t)
    (before : Nat → Nat) (h : Good S i t before) (hp : Prepared t.acts) :
    ∃ t1, (S.step i).threads[i]? = some t1 ∧ Good (S.step i) i t1 before := by
  have hi : i < S.threads.length := (List.getElem?_eq_some_iff.mp ht).1
  have hlog := (step_rest S i).2.1
  obtain ⟨hb, h⟩ := h
  unfold Good
  rw [hlog]
  rcases h with ⟨hr, hpos, ⟨hpc, hl⟩ | ⟨c, hpc, hl⟩⟩ | ⟨c, k, hl, ho, hpc1, hpc2⟩
  · refine ⟨{ t with pc := .register (S.content t), listed := some (S.content t) }, ?_, hb, .inl ⟨hr, hpos, .inr ⟨_, rfl, rfl⟩⟩⟩
    unfold Sys.step
    rw [ht]
    simp only [hpc]
    rw [List.getElem?_set_self hi]
  · refine ⟨{ t with pc := .look }, ?_, hb, .inr ⟨c, S.nextCat, hl, ?_, by simp, by simp⟩⟩
    · unfold Sys.step
      rw [ht]
      simp only [hpc]
      rw [List.getElem?_set_self hi]
    · unfold Sys.step
      rw [ht]
      simp only [hpc]
      refine ⟨by simp, by simp, ?_, ?_, ?_, ?_, ?_, ?_, ?_, ?_, ?_, ?_, ?_⟩
      · intro s n hk
        simp only at hk
        split at hk
        · rename_i e; exact e.1
        · have := hI.reg s n _ hk; omega
      · intro j u hu hj hk
        simp only at hu
        rcases set_get hu with ⟨h, _⟩ | ⟨_, hu⟩
        · exact hj h.symm
        · have := hI.pend j u _ hu hk; omega
      · intro n
        simp [fresh, Option.map_map, Function.comp_def]
      · intro n p v hv
        simp [fresh] at hv
      · intro n v e hv
        simp [fresh] at hv
      · intro j n v hj
        simp only at hj
        omega
      · intro n hm
        simp [hr] at hm
      · intro n p v hm
        simp [hr] at hm
      · simp
      · simp
      · simp
  · have hpend : ∀ w (j : Nat) u, (S.threads.set i w)[j]? = some u → j ≠ i → u.pc.cat? ≠ some k := by
      intro w j u hu hj
      rcases set_get hu with ⟨h, _⟩ | ⟨_, hu⟩
      · exact absurd h.symm hj
      · exact ho.pend j u hu hj
    unfold Sys.step
    rw [ht]
    simp only
    split
    · rename_i h; exact absurd h hpc1
    · rename_i h; exact absurd h (hpc2 _)
    · rename_i h
      obtain ⟨f1, f2, f3, f4, f5⟩ := lookTh_fields S t
      refine ⟨S.lookTh t, List.getElem?_set_self hi, hb, .inr ⟨c, k, f5.trans hl, ?_, lookTh_pc S t⟩⟩
      exact own_look S i t c before k ho hp _ rfl rfl rfl rfl ⟨_, rfl⟩
    · rename_i k' p h
      obtain ⟨rfl, a, ha, hv⟩ := ho.load k' p h
      refine ⟨_, List.getElem?_set_self hi, hb, .inr ⟨c, k', hl, ?_, by simp, by simp⟩⟩
      refine ⟨ho.reg, ho.lt, ho.alone, hpend _, ho.places, ho.vers, ho.explicit, ho.known, ho.none_, ho.some_, ?_, ?_, ?_⟩
      · simp
      · intro k'' q w hq
        simp only [Pc.insert.injEq] at hq
        obtain ⟨rfl, rfl, rfl⟩ := hq
        exact ⟨rfl, hb p, Nat.le_refl _, a, ha, hv⟩
      · simp
    · rename_i k' p v h
      obtain ⟨rfl, hv1, hv2, a, ha, hv⟩ := ho.insert k' p v h
      rw [ha]
      simp only
      obtain ⟨f1, f2, f3, f4, f5⟩ := found_fields t a p v
      refine ⟨_, List.getElem?_set_self hi, hb, .inr ⟨c, k', f5.trans hl, ?_, by cases a <;> simp [Th.found], by cases a <;> simp [Th.found]⟩⟩
      have hname : a.name.2 = none := by
        cases a with
        | travel n w => rfl
        | find n =>
          obtain ⟨n, w⟩ := n
          cases w with
          | none => rfl
          | some w =>
            have := (ho.explicit n w _ hv).2
            simp at this
      have hplace : c a.name.1 = some p := by
        rw [← ho.places]
        have : a.name = (a.name.1, none) := Prod.ext rfl hname
        rw [← this, hv]; rfl
      have hother : ∀ n e, n ≠ a.name → (setHeap S.heap k' a.name ⟨p, some v⟩ k' n = some e ↔ S.heap k' n = some e) := by
        intro n e hn
        simp only [setHeap]
        rw [if_neg (by intro x; exact hn x.2)]
      have hself : setHeap S.heap k' a.name ⟨p, some v⟩ k' a.name = some ⟨p, some v⟩ := by
        simp [setHeap]
      have hsome : ∀ n q w, (n, some (q, w)) ∈ t.results → setHeap S.heap k' a.name ⟨p, some v⟩ k' n = some ⟨q, some w⟩ := by
        intro n q w hm
        have h1 := ho.some_ n q w hm
        by_cases hn : n = a.name
        · rw [hn, hv] at h1; simp at h1
        · exact (hother n _ hn).mpr h1
      have hknown : ∀ (j : Nat) n w, j < t.pos → t.acts[j]? = some (.travel n w) →
          setHeap S.heap k' a.name ⟨p, some v⟩ k' (n, some w) ≠ none := by
        intro j n w hj hm
        have h1 := ho.known j n w hj hm
        have hn : (n, some w) ≠ a.name := by
          intro e; rw [← e] at hname; simp at hname
        simp only [setHeap]
        rw [if_neg (by intro x; exact hn x.2)]
        exact h1
      refine ⟨by rw [f1, f2]; exact ho.reg, ho.lt, by rw [f1]; exact ho.alone, hpend _, ?_, ?_, ?_, ?_, ?_, ?_, ?_, ?_, ?_⟩
      · intro n
        by_cases hn : (n, none) = a.name
        · simp only [hn, hself, Option.map_some]
          rw [← hplace, ← hn]
        · simp only [setHeap]
          rw [if_neg (by intro x; exact hn x.2)]
          exact ho.places n
      · intro n q w hw
        by_cases hn : (n, none) = a.name
        · simp only [hn, hself, Option.some.injEq, Entry.mk.injEq] at hw
          obtain ⟨rfl, rfl⟩ := hw
          exact ⟨hv1, hv2⟩
        · exact ho.vers n q w ((hother _ _ hn).mp hw)
      · intro n w e hw
        have hn : (n, some w) ≠ a.name := by
          intro e; rw [← e] at hname; simp at hname
        exact ho.explicit n w e ((hother _ _ hn).mp hw)
      · intro j n w hj hm
        rw [f4] at hm
        cases a with
        | find m =>
          simp only [Th.found] at hj
          by_cases hjp : j = t.pos
          · rw [hjp, ha] at hm; simp at hm
          · exact hknown j n w (by omega) hm
        | travel m x => exact hknown j n w hj hm
      · intro n hm
        cases a with
        | find m =>
          simp only [Th.found, List.mem_append, List.mem_singleton, Prod.mk.injEq] at hm
          rcases hm with hm | ⟨_, h⟩
          · exact ho.none_ n hm
          · simp at h
        | travel m x => exact ho.none_ n hm
      · intro n q w hm
        cases a with
        | find m =>
          simp only [Th.found, List.mem_append, List.mem_singleton, Prod.mk.injEq, Option.some.injEq] at hm
          rcases hm with hm | ⟨rfl, rfl, rfl⟩
          · exact hsome n q w hm
          · exact hself
        | travel m x => exact hsome n q w hm
      · cases a <;> simp [Th.found]
      · cases a <;> simp [Th.found]
      · intro q hq
        cases a with
        | find m => simp [Th.found] at hq
        | travel m x =>
          simp only [Th.found, Pc.put.injEq] at hq
          subst hq
          exact ⟨m, x, ha, hplace⟩
    · rename_i p h
      obtain ⟨n, v, ha, hc⟩ := ho.put p h
      rw [ha, ho.reg]
      simp only
      refine ⟨_, List.getElem?_set_self hi, hb, .inr ⟨c, k, hl, ?_, by simp, by simp⟩⟩
      have hother : ∀ m, m ≠ (n, some v) →
          (if (S.heap k (n, some v)).isSome then S.heap else setHeap S.heap k (n, some v) ⟨p, some v⟩) k m = S.heap k m := by
        intro m hm
        split
        · rfl
        · simp only [setHeap]
          rw [if_neg (by intro x; exact hm x.2)]
      have hthis : ∃ e, (if (S.heap k (n, some v)).isSome then S.heap else setHeap S.heap k (n, some v) ⟨p, some v⟩) k (n, some v) = some e
          ∧ c n = some e.place ∧ e.ver = some v := by
        split
        · rename_i hs
          obtain ⟨e, he⟩ := Option.isSome_iff_exists.mp hs
          exact ⟨e, he, ho.explicit n v e he⟩
        · exact ⟨⟨p, some v⟩, by simp [setHeap], hc, rfl⟩
      have hkeep : ∀ m e, S.heap k m = some e →
          (if (S.heap k (n, some v)).isSome then S.heap else setHeap S.heap k (n, some v) ⟨p, some v⟩) k m = some e := by
        intro m e hm
        by_cases hn : m = (n, some v)
        · subst hn
          rw [if_pos (by rw [hm]; rfl)]
          exact hm
        · rw [hother m hn, hm]
      refine ⟨ho.reg, ho.lt, ho.alone, hpend _, ?_, ?_, ?_, ?_, ho.none_, ?_, ?_, ?_, ?_⟩
      · intro m
        simp only
        rw [hother (m, none) (by simp)]
        exact ho.places m
      · intro m q w hw
        simp only at hw
        rw [hother (m, none) (by simp)] at hw
        exact ho.vers m q w hw
      · intro m w e he
        simp only at he
        by_cases hn : (m, some w) = (n, some v)
        · rw [hn] at he
          simp only [Prod.mk.injEq, Option.some.injEq] at hn
          obtain ⟨rfl, rfl⟩ := hn
          obtain ⟨e', h1, h2⟩ := hthis
          rw [h1] at he
          simp only [Option.some.injEq] at he
          subst he
          exact h2
        · rw [hother _ hn] at he
          exact ho.explicit m w e he
      · intro j m w hj hm
        simp only at hj hm ⊢
        by_cases hn : (m, some w) = (n, some v)
        · obtain ⟨e', h1, _⟩ := hthis
          rw [hn, h1]; simp
        · rw [hother _ hn]
          refine ho.known j m w ?_ hm
          by_cases hjp : j = t.pos
          · rw [hjp, ha] at hm
            simp only [Option.some.injEq, Act.travel.injEq] at hm
            exact absurd (by rw [hm.1, hm.2]) hn
          · omega
      · intro m q w hm
        exact hkeep m _ (ho.some_ m q w hm)
      · simp
      · simp
      · simp
    · exact ⟨t, ht, hb, .inr ⟨c, k, hl, ho, hpc1, hpc2⟩⟩
    · exact ⟨t, ht, hb, .inr ⟨c, k, hl, ho, hpc1, hpc2⟩⟩

/-- No other thread in the session of thread `i` makes a step. -/
def Quiet (i : Nat) : Sys → List Ev → Prop
  | _, [] => True
  | S, e :: es => (∀ j u t, e = .step j → j ≠ i → S.threads[j]? = some u → S.threads[i]? = some t → u.sess ≠ t.sess) ∧
      Quiet i (S.apply e) es

theorem good_apply (i : Nat) (before : Nat → Nat) (e : Ev) (S : Sys) (t t0 : Th) (hI : Inv S)
    (ht : S.threads[i]? = some t) (ht0 : (S.apply e).threads[i]? = some t0) (hg : Good S i t before) (hp : Prepared t.acts)
    (hq1 : ∀ j u t, e = .step j → j ≠ i → S.threads[j]? = some u → S.threads[i]? = some t → u.sess ≠ t.sess) :
    Good (S.apply e) i t0 before := by
  have hi : i < S.threads.length := (List.getElem?_eq_some_iff.mp ht).1
  cases e with
  | step j =>
    by_cases hj : j = i
    · subst hj
      obtain ⟨t1, h1, h2⟩ := good_self S hI j t ht before hg hp
      rw [Sys.apply, h1] at ht0
      simp only [Option.some.injEq] at ht0
      exact ht0 ▸ h2
    · cases hu : S.threads[j]? with
      | none =>
        rw [Sys.apply, step_none S j hu] at ht0 ⊢
        rw [ht] at ht0
        simp only [Option.some.injEq] at ht0
        exact ht0 ▸ hg
      | some u =>
        obtain ⟨h1, h2⟩ := good_other S i j hj t u ht hu (hq1 j u t rfl hj hu ht) before hg
        rw [Sys.apply, h1] at ht0
        simp only [Option.some.injEq] at ht0
        exact ht0 ▸ h2
  | admit r =>
    obtain ⟨u, h1, hpc, _, _, _, _, _, _, _, hr, hh, hc, hlog, _⟩ := admit_threads S r
    have : t0 = t := by
      rw [Sys.apply, h1, List.getElem?_append_left hi, ht] at ht0
      simp only [Option.some.injEq] at ht0
      exact ht0.symm
    subst this
    obtain ⟨hb, hg⟩ := hg
    refine ⟨by rw [Sys.apply, hlog]; exact hb, ?_⟩
    rcases hg with hg | ⟨c, k, hl, ho, hx⟩
    · exact .inl hg
    · refine .inr ⟨c, k, hl, ?_, hx⟩
      simp only [Sys.apply]
      refine ⟨by rw [hr]; exact ho.reg, by rw [hc]; exact ho.lt, by rw [hr]; exact ho.alone, ?_, by rw [hh]; exact ho.places,
        by rw [hh, hlog]; exact ho.vers, by rw [hh]; exact ho.explicit, by rw [hh]; exact ho.known, ho.none_,
        by rw [hh]; exact ho.some_, by rw [hh]; exact ho.load, by rw [hh, hlog]; exact ho.insert, ho.put⟩
      intro j w hw hj
      rw [h1] at hw
      rcases append_get hw with hw | ⟨_, rfl⟩
      · exact ho.pend j w hw hj
      · rw [hpc]; simp [Pc.cat?]
  | ddl cat c =>
    simp only [Sys.apply] at ht0
    rw [ht] at ht0
    simp only [Option.some.injEq] at ht0
    subst ht0
    obtain ⟨hb, hg⟩ := hg
    refine ⟨hb, ?_⟩
    rcases hg with hg | ⟨c, k, hl, ho, hx⟩
    · exact .inl hg
    · exact .inr ⟨c, k, hl, ⟨ho.reg, ho.lt, ho.alone, ho.pend, ho.places, ho.vers, ho.explicit, ho.known, ho.none_, ho.some_,
        ho.load, ho.insert, ho.put⟩, hx⟩
  | commit p =>
    simp only [Sys.apply] at ht0
    rw [ht] at ht0
    simp only [Option.some.injEq] at ht0
    subst ht0
    have hmono : ∀ q, S.log q ≤ (if q = p then S.log q + 1 else S.log q) := by intro q; split <;> omega
    obtain ⟨hb, hg⟩ := hg
    refine ⟨fun q => Nat.le_trans (hb q) (hmono q), ?_⟩
    rcases hg with hg | ⟨c, k, hl, ho, hx⟩
    · exact .inl hg
    · refine .inr ⟨c, k, hl, ⟨ho.reg, ho.lt, ho.alone, ho.pend, ho.places, ?_, ho.explicit, ho.known, ho.none_, ho.some_,
        ho.load, ?_, ho.put⟩, hx⟩
      · intro n q v hv
        obtain ⟨h1, h2⟩ := ho.vers n q v hv
        exact ⟨h1, Nat.le_trans h2 (hmono q)⟩
      · intro k' q v hv
        obtain ⟨h1, h2, h3, h4⟩ := ho.insert k' q v hv
        exact ⟨h1, h2, Nat.le_trans h3 (hmono q), h4⟩

/-! ### what a statement has looked up -/

def Act.find? : Act → Option Name
  | .find n => some n
  | .travel _ _ => none

/-- A statement that has not failed has found everything it looked up so far; one that failed did not find a table. -/
structure Tale (t : Th) : Prop where
  going : t.pc ≠ .failed → t.results.map (·.1) = (t.acts.take t.pos).filterMap Act.find? ∧ ∀ x ∈ t.results, x.2 ≠ none
  done : t.pc = .done → t.acts.length ≤ t.pos
  failed : t.pc = .failed → ∃ a, t.acts[t.pos]? = some a ∧ ∃ rs, t.results = rs ++ [(a.name, none)]

theorem tale_found (t : Th) (h : Tale t) (hpc : t.pc ≠ .failed) (a : Act) (ha : t.acts[t.pos]? = some a) (p v : Nat) :
    Tale (t.found a p v) := by
  obtain ⟨h1, h2⟩ := h.going hpc
  cases a with
  | travel n w =>
    refine ⟨fun _ => ⟨h1, h2⟩, ?_, ?_⟩ <;> simp [Th.found]
  | find n =>
    refine ⟨fun _ => ⟨?_, ?_⟩, ?_, ?_⟩
    · simp only [Th.found, List.map_append, List.map_cons, List.map_nil]
      rw [List.take_add_one, ha, List.filterMap_append, h1]
      rfl
    · intro x hx
      simp only [Th.found, List.mem_append, List.mem_singleton] at hx
      rcases hx with hx | rfl
      · exact h2 x hx
      · simp
    · simp [Th.found]
    · simp [Th.found]

theorem tale_self (S : Sys) (i : Nat) (t t1 : Th) (ht : S.threads[i]? = some t)
    (h1 : (S.step i).threads[i]? = some t1) (before : Nat → Nat) (hg : Good S i t before) (h : Tale t) : Tale t1 := by
  have hi : i < S.threads.length := (List.getElem?_eq_some_iff.mp ht).1
  have hmiss : ∀ a, t.acts[t.pos]? = some a → Tale (t.missing a) := by
    intro a ha
    exact ⟨by simp [Th.missing], by simp [Th.missing], fun _ => ⟨a, ha, t.results, rfl⟩⟩
  unfold Sys.step at h1
  rw [ht] at h1
  simp only at h1
  split at h1
  · rename_i hpc
    rw [List.getElem?_set_self hi] at h1
    simp only [Option.some.injEq] at h1; subst h1
    refine ⟨fun _ => h.going (by simp [hpc]), ?_, ?_⟩ <;> simp
  · rename_i hpc
    rw [List.getElem?_set_self hi] at h1
    simp only [Option.some.injEq] at h1; subst h1
    refine ⟨fun _ => h.going (by simp [hpc]), ?_, ?_⟩ <;> simp
  · rename_i hpc
    rw [List.getElem?_set_self hi] at h1
    simp only [Option.some.injEq] at h1; subst h1
    unfold Sys.lookTh
    split
    · rename_i hn
      refine ⟨fun _ => h.going (by simp [hpc]), fun _ => ?_, by simp⟩
      simpa using hn
    · rename_i a ha
      split
      · exact hmiss a ha
      · split
        · exact hmiss a ha
        · exact tale_found t h (by simp [hpc]) a ha _ _
        · refine ⟨fun _ => h.going (by simp [hpc]), ?_, ?_⟩ <;> simp
  · rename_i hpc
    rw [List.getElem?_set_self hi] at h1
    simp only [Option.some.injEq] at h1; subst h1
    refine ⟨fun _ => h.going (by simp [hpc]), ?_, ?_⟩ <;> simp
  · rename_i hpc
    split at h1
    · rw [ht] at h1
      simp only [Option.some.injEq] at h1; subst h1
      exact h
    · rename_i a ha
      rw [List.getElem?_set_self hi] at h1
      simp only [Option.some.injEq] at h1; subst h1
      exact tale_found t h (by simp [hpc]) a ha _ _
  · rename_i p hpc
    rcases hg.2 with ⟨_, _, ⟨h2, _⟩ | ⟨c, h2, _⟩⟩ | ⟨c, k, _, ho, _⟩
    · rw [h2] at hpc; simp at hpc
    · rw [h2] at hpc; simp at hpc
    · obtain ⟨n, v, ha, _⟩ := ho.put p hpc
      rw [ha, ho.reg] at h1
      simp only at h1
      rw [List.getElem?_set_self hi] at h1
      simp only [Option.some.injEq] at h1; subst h1
      obtain ⟨h3, h4⟩ := h.going (by simp [hpc])
      refine ⟨fun _ => ⟨?_, h4⟩, by simp, by simp⟩
      simp only
      rw [List.take_add_one, ha, List.filterMap_append, h3]
      simp [Act.find?]
  · rw [ht] at h1
    simp only [Option.some.injEq] at h1; subst h1
    exact h
  · rw [ht] at h1
    simp only [Option.some.injEq] at h1; subst h1
    exact h

theorem apply_other (S : Sys) (e : Ev) (i : Nat) (t : Th) (ht : S.threads[i]? = some t) (h : e ≠ .step i) :
    (S.apply e).threads[i]? = some t := by
  have hi : i < S.threads.length := (List.getElem?_eq_some_iff.mp ht).1
  cases e with
  | admit r =>
    obtain ⟨u, h1, _⟩ := admit_threads S r
    rw [Sys.apply, h1, List.getElem?_append_left hi, ht]
  | step j =>
    have hj : j ≠ i := by rintro rfl; exact h rfl
    cases hu : S.threads[j]? with
    | none => rw [Sys.apply, step_none S j hu, ht]
    | some u =>
      obtain ⟨t1, h1, _⟩ := step_threads S j u hu
      rw [Sys.apply, h1, List.getElem?_set_ne hj, ht]
  | ddl cat c => exact ht
  | commit p => exact ht

theorem good_run (i : Nat) (before : Nat → Nat) : ∀ (es : List Ev) (S : Sys) (t : Th), Inv S → 0 < S.nextSess →
    S.threads[i]? = some t → Good S i t before → Tale t → Prepared t.acts → Quiet i S es →
    ∃ t1, (S.run es).threads[i]? = some t1 ∧ Good (S.run es) i t1 before ∧ Tale t1 ∧ t1.acts = t.acts
  | [], S, t, _, _, ht, hg, hta, _, _ => ⟨t, ht, hg, hta, rfl⟩
  | e :: es, S, t, hI, hn, ht, hg, hta, hp, hq => by
    obtain ⟨hI1, hn1⟩ := inv_apply S hI hn e
    obtain ⟨hq1, hq2⟩ := hq
    obtain ⟨t0, ht0, _, _, _, hacts, _⟩ := apply_thread S e i t ht
    have key := good_apply i before e S t t0 hI ht ht0 hg hp hq1
    have key2 : Tale t0 := by
      by_cases he : e = .step i
      · subst he
        exact tale_self S i t t0 ht ht0 before hg hta
      · rw [apply_other S e i t ht he] at ht0
        simp only [Option.some.injEq] at ht0
        exact ht0 ▸ hta
    obtain ⟨t1, h1, h2, h3, h4⟩ := good_run i before es (S.apply e) t0 hI1 hn1 ht0 key key2 (hacts ▸ hp) hq2
    exact ⟨t1, h1, h2, h3, h4.trans hacts⟩

/-! ### the session of a scoped request is its own -/

/-- No other thread has session `s`, and new ones will not get it. -/
def Sole (S : Sys) (i s : Nat) : Prop :=
  s ≠ 0 ∧ s < S.nextSess ∧ ∀ (j : Nat) u, S.threads[j]? = some u → j ≠ i → u.sess ≠ s

theorem sole_apply (S : Sys) (i s : Nat) (hi : i < S.threads.length) (h : Sole S i s) (e : Ev) : Sole (S.apply e) i s := by
  obtain ⟨h0, h1, h2⟩ := h
  cases e with
  | admit r =>
    obtain ⟨u, e1, _, _, _, _, _, _, _, hs, _⟩ := admit_threads S r
    refine ⟨h0, by simp only [Sys.apply]; rcases hs with ⟨_, _, e⟩ | ⟨_, _, e⟩ <;> omega, ?_⟩
    intro j w hw hj
    simp only [Sys.apply] at hw
    rw [e1] at hw
    rcases append_get hw with hw | ⟨_, rfl⟩
    · exact h2 j w hw hj
    · rcases hs with ⟨e, _, _⟩ | ⟨e, _, _⟩ <;> omega
  | step m =>
    refine ⟨h0, by rw [Sys.apply, (step_rest S m).1]; exact h1, ?_⟩
    intro j w hw hj
    simp only [Sys.apply] at hw
    cases hu : S.threads[m]? with
    | none => rw [step_none S m hu] at hw; exact h2 j w hw hj
    | some u =>
      obtain ⟨u1, e1, e2, _⟩ := step_threads S m u hu
      rw [e1] at hw
      rcases set_get hw with ⟨rfl, rfl⟩ | ⟨_, hw⟩
      · rw [e2]; exact h2 m u hu hj
      · exact h2 j w hw hj
  | ddl cat c => exact ⟨h0, h1, h2⟩
  | commit p => exact ⟨h0, h1, h2⟩

theorem sole_quiet (i : Nat) : ∀ (es : List Ev) (S : Sys) (t : Th), S.threads[i]? = some t → Sole S i t.sess → Quiet i S es
  | [], _, _, _, _ => trivial
  | e :: es, S, t, ht, h => by
    refine ⟨?_, ?_⟩
    · intro j u t' he hj hu ht'
      rw [ht] at ht'
      simp only [Option.some.injEq] at ht'
      exact ht' ▸ h.2.2 j u hu hj
    · obtain ⟨t1, h1, hs, _⟩ := apply_thread S e i t ht
      refine sole_quiet i es _ t1 h1 ?_
      rw [hs]
      exact sole_apply S i t.sess (List.getElem?_eq_some_iff.mp ht).1 h e

/-- What is known of a statement while nobody else uses its session. -/
theorem outcome (server : String → Content) (log : Nat → Nat) (es1 es2 : List Ev) (r : Request) (hp : Prepared r.acts)
    (hq : Quiet ((Sys.init server log).run es1).threads.length (((Sys.init server log).run es1).admit r) es2) :
    ∃ t, ((((Sys.init server log).run es1).admit r).run es2).threads[((Sys.init server log).run es1).threads.length]? = some t ∧
      Good ((((Sys.init server log).run es1).admit r).run es2) ((Sys.init server log).run es1).threads.length t
        ((Sys.init server log).run es1).log ∧ Tale t ∧ t.acts = r.acts ∧
      (t.listed = none ∨ ∃ a b, es2 = a ++ b ∧
        t.listed = some (r.content ((((Sys.init server log).run es1).admit r).run a))) := by
  obtain ⟨hI, hn⟩ := inv_run es1 (Sys.init server log) (inv_init server log) (by simp [Sys.init])
  generalize (Sys.init server log).run es1 = S at *
  obtain ⟨u, h1, hpc, hcat, hin, hacts, hl, hres, hpos, _, _, _, _, hlog, _⟩ := admit_threads S r
  have hu : (S.admit r).threads[S.threads.length]? = some u := by
    rw [h1, List.getElem?_append_right (Nat.le_refl _)]; simp
  obtain ⟨hI1, hn1⟩ := inv_apply S hI hn (.admit r)
  have hg : Good (S.admit r) S.threads.length u S.log :=
    ⟨by rw [hlog]; exact fun _ => Nat.le_refl _, .inl ⟨hres, hpos, .inl ⟨hpc, hl⟩⟩⟩
  have hta : Tale u := by
    refine ⟨fun _ => ?_, by simp [hpc], by simp [hpc]⟩
    rw [hres, hpos]
    simp
  obtain ⟨t, ht, hg', hta', hacts'⟩ := good_run S.threads.length S.log es2 (S.admit r) u hI1 hn1 hu hg hta (hacts ▸ hp) hq
  refine ⟨t, ht, hg', hta', hacts'.trans hacts, ?_⟩
  rcases listed_moment S.threads.length es2 (S.admit r) u t hu ht with h | ⟨a, b, hab, h⟩
  · exact .inl (h.trans hl)
  · refine .inr ⟨a, b, hab, ?_⟩
    rw [h]
    unfold Sys.content Request.content
    rw [hin, hcat]
    cases r.inline <;> cases r.scope <;> rfl

/-- The session of a scoped request is its own. -/
theorem scoped_quiet (server : String → Content) (log : Nat → Nat) (es1 es2 : List Ev) (r : Request)
    (hs : r.scope ≠ .shared) :
    Quiet ((Sys.init server log).run es1).threads.length (((Sys.init server log).run es1).admit r) es2 := by
  obtain ⟨hI, hn⟩ := inv_run es1 (Sys.init server log) (inv_init server log) (by simp [Sys.init])
  generalize (Sys.init server log).run es1 = S at *
  obtain ⟨u, h1, _, _, _, _, _, _, _, hu, _⟩ := admit_threads S r
  refine sole_quiet _ es2 _ u (by rw [h1, List.getElem?_append_right (Nat.le_refl _)]; simp) ?_
  rcases hu with ⟨_, h, _⟩ | ⟨e, _, e2⟩
  · exact absurd h hs
  · refine ⟨by omega, by omega, ?_⟩
    intro j w hw hj
    rw [h1] at hw
    rcases append_get hw with hw | ⟨h, _⟩
    · have := hI.sess j w hw
      omega
    · exact absurd h hj

/-! ### C86 -/

/-- `Right` for all lookups, from what is known of the catalog. -/
theorem right_of_good (S : Sys) (i : Nat) (t : Th) (before : Nat → Nat) (hg : Good S i t before) (c : Content)
    (hl : t.listed = some c) (n : Name) (res : Option (Nat × Nat)) (hm : (n, res) ∈ t.results) : Right c before S.log n res := by
  rcases hg.2 with ⟨h, _⟩ | ⟨c', k, hl', ho, _⟩
  · rw [h] at hm; simp at hm
  · rw [hl] at hl'
    simp only [Option.some.injEq] at hl'
    subst hl'
    obtain ⟨n, w⟩ := n
    cases res with
    | none =>
      obtain ⟨_, h2⟩ := ho.none_ _ hm
      exact ⟨by rw [h2]; rfl, by simp⟩
    | some pv =>
      obtain ⟨p, v⟩ := pv
      have h1 := ho.some_ _ _ _ hm
      cases w with
      | none =>
        refine ⟨by rw [← ho.places n, h1]; rfl, ?_⟩
        intro p' v' e
        simp only [Option.some.injEq, Prod.mk.injEq] at e
        obtain ⟨rfl, rfl⟩ := e
        exact ho.vers n p v h1
      | some w =>
        obtain ⟨h2, h3⟩ := ho.explicit n w _ h1
        refine ⟨by rw [h2]; rfl, ?_⟩
        intro p' v' e
        simp only [Option.some.injEq, Prod.mk.injEq] at e
        obtain ⟨rfl, rfl⟩ := e
        simpa using h3

/-- A statement with a search path or in another database finds exactly the tables its metastore had at one moment
while it ran, whatever else the server does. -/
theorem C86_scoped (server : String → Content) (log : Nat → Nat) (es1 es2 : List Ev) (r : Request)
    (hs : r.scope ≠ .shared) (hp : Prepared r.acts) :
    let S := (Sys.init server log).run es1
    ∃ t, ((S.admit r).run es2).threads[S.threads.length]? = some t ∧
      ∃ a b, es2 = a ++ b ∧ ∀ n res, (n, res) ∈ t.results →
        Right (r.content ((S.admit r).run a)) S.log ((S.admit r).run es2).log n res := by
  intro S
  obtain ⟨t, ht, hg, _, _, hl⟩ := outcome server log es1 es2 r hp (scoped_quiet server log es1 es2 r hs)
  refine ⟨t, ht, ?_⟩
  rcases hl with hl | ⟨a, b, hab, hl⟩
  · refine ⟨[], es2, rfl, ?_⟩
    intro n res hm
    rcases hg.2 with ⟨h, _⟩ | ⟨c', k, hl', _⟩
    · rw [h] at hm; simp at hm
    · rw [hl] at hl'; simp at hl'
  · exact ⟨a, b, hab, fun n res hm => right_of_good _ _ t _ hg _ hl n res hm⟩

/-- A statement without either does so if no other such statement makes a step meanwhile (see `C86_violated_…`). -/
theorem C86_alone_partial (server : String → Content) (log : Nat → Nat) (es1 es2 : List Ev) (r : Request)
    (hp : Prepared r.acts)
    (hq : Quiet ((Sys.init server log).run es1).threads.length (((Sys.init server log).run es1).admit r) es2) :
    let S := (Sys.init server log).run es1
    ∃ t, ((S.admit r).run es2).threads[S.threads.length]? = some t ∧
      ∃ a b, es2 = a ++ b ∧ ∀ n res, (n, res) ∈ t.results →
        Right (r.content ((S.admit r).run a)) S.log ((S.admit r).run es2).log n res := by
  intro S
  obtain ⟨t, ht, hg, _, _, hl⟩ := outcome server log es1 es2 r hp hq
  refine ⟨t, ht, ?_⟩
  rcases hl with hl | ⟨a, b, hab, hl⟩
  · refine ⟨[], es2, rfl, ?_⟩
    intro n res hm
    rcases hg.2 with ⟨h, _⟩ | ⟨c', k, hl', _⟩
    · rw [h] at hm; simp at hm
    · rw [hl] at hl'; simp at hl'
  · exact ⟨a, b, hab, fun n res hm => right_of_good _ _ t _ hg _ hl n res hm⟩

/-- A scoped statement that ends has looked up all its names and found them; it fails only because of a name that is
not in its metastore at that moment. -/
theorem C86_complete (server : String → Content) (log : Nat → Nat) (es1 es2 : List Ev) (r : Request)
    (hs : r.scope ≠ .shared) (hp : Prepared r.acts) :
    let S := (Sys.init server log).run es1
    ∃ t, ((S.admit r).run es2).threads[S.threads.length]? = some t ∧
      (t.pc = .done → t.results.map (·.1) = r.acts.filterMap Act.find? ∧ ∀ x ∈ t.results, x.2 ≠ none) ∧
      (t.pc = .failed → ∃ a b, es2 = a ++ b ∧ ∃ x ∈ r.acts, r.content ((S.admit r).run a) x.name.1 = none) := by
  intro S
  obtain ⟨t, ht, hg, hta, hacts, hl⟩ := outcome server log es1 es2 r hp (scoped_quiet server log es1 es2 r hs)
  refine ⟨t, ht, ?_, ?_⟩
  · intro h
    obtain ⟨h1, h2⟩ := hta.going (by simp [h])
    rw [List.take_of_length_le (hta.done h), hacts] at h1
    exact ⟨h1, h2⟩
  · intro h
    obtain ⟨x, hx, rs, hrs⟩ := hta.failed h
    have hm : (x.name, none) ∈ t.results := by rw [hrs]; simp
    have hmem : x ∈ r.acts := hacts ▸ List.mem_of_getElem? hx
    rcases hl with hl | ⟨a, b, hab, hl⟩
    · rcases hg.2 with ⟨h, _⟩ | ⟨c', k, hl', _⟩
      · rw [h] at hm; simp at hm
      · rw [hl] at hl'; simp at hl'
    · exact ⟨a, b, hab, x, hmem, (right_of_good _ _ t _ hg _ hl _ _ hm).1.symm⟩

/-! ### C85 -/

theorem same_of_good (S : Sys) (i : Nat) (t : Th) (before : Nat → Nat) (hg : Good S i t before) (n : Name)
    (r1 r2 : Option (Nat × Nat)) (h1 : (n, r1) ∈ t.results) (h2 : (n, r2) ∈ t.results) : r1 = r2 := by
  rcases hg.2 with ⟨h, _⟩ | ⟨c, k, hl, ho, _⟩
  · rw [h] at h1; simp at h1
  · have e1 := (right_of_good S i t before hg c hl n r1 h1).1
    have e2 := (right_of_good S i t before hg c hl n r2 h2).1
    cases r1 with
    | none =>
      cases r2 with
      | none => rfl
      | some y => rw [← e1] at e2; simp at e2
    | some x =>
      cases r2 with
      | none => rw [← e2] at e1; simp at e1
      | some y =>
        obtain ⟨p, v⟩ := x
        obtain ⟨q, w⟩ := y
        have a1 := ho.some_ _ _ _ h1
        have a2 := ho.some_ _ _ _ h2
        rw [a1] at a2
        simp only [Option.some.injEq, Entry.mk.injEq] at a2
        rw [a2.1, a2.2]

/-- All lookups of a name in a statement with a search path or in another database give the same version. -/
theorem C85_scoped (server : String → Content) (log : Nat → Nat) (es1 es2 : List Ev) (r : Request)
    (hs : r.scope ≠ .shared) (hp : Prepared r.acts) :
    let S := (Sys.init server log).run es1
    ∃ t, ((S.admit r).run es2).threads[S.threads.length]? = some t ∧
      ∀ n r1 r2, (n, r1) ∈ t.results → (n, r2) ∈ t.results → r1 = r2 := by
  intro S
  obtain ⟨t, ht, hg, _⟩ := outcome server log es1 es2 r hp (scoped_quiet server log es1 es2 r hs)
  exact ⟨t, ht, fun n r1 r2 => same_of_good _ _ t _ hg n r1 r2⟩

/-- So do those of a statement during which no other one makes a step in the session of the server. -/
theorem C85_alone_partial (server : String → Content) (log : Nat → Nat) (es1 es2 : List Ev) (r : Request)
    (hp : Prepared r.acts)
    (hq : Quiet ((Sys.init server log).run es1).threads.length (((Sys.init server log).run es1).admit r) es2) :
    let S := (Sys.init server log).run es1
    ∃ t, ((S.admit r).run es2).threads[S.threads.length]? = some t ∧
      ∀ n r1 r2, (n, r1) ∈ t.results → (n, r2) ∈ t.results → r1 = r2 := by
  intro S
  obtain ⟨t, ht, hg, _⟩ := outcome server log es1 es2 r hp hq
  exact ⟨t, ht, fun n r1 r2 => same_of_good _ _ t _ hg n r1 r2⟩

/-! ### concrete runs -/

def results (S : Sys) (i : Nat) : List (Name × Option (Nat × Nat)) := ((S.threads[i]?).map (·.results)).getD []

def one (n : String) (p : Nat) : Content := fun m => if m = n then some p else none

/-- The server has table `t` at place 1, version 7. -/
def start : Sys := Sys.init (fun _ => one "t" 1) (fun _ => 7)

def steps (i n : Nat) : List Ev := List.replicate n (.step i)

/-- A statement that names `t` twice and version 3 of it. -/
def twice (s : Scope) (c : Option Content) : Request :=
  ⟨s, c, [.travel "t" 3, .find ("t", none), .find ("t", some 3), .find ("t", none)]⟩

example : Prepared (twice .searchPath none).acts := by
  intro j t v h
  match j, h with
  | 0, h => simp [twice] at h
  | 1, h => simp [twice] at h
  | 2, h => simp [twice] at h; exact ⟨0, by omega, by simp [twice, h]⟩
  | 3, h => simp [twice] at h
  | (n + 4), h => simp [twice] at h

/-- Another one drops `t` and a third writes to it: the scoped statement finds what it listed. -/
example : results (start.run ([.admit (twice .searchPath none)] ++ steps 0 2 ++ [.ddl "default" (one "u" 2)] ++
    steps 0 4 ++ [.commit 1] ++ steps 0 5)) 0 =
    [(("t", none), some (1, 7)), (("t", some 3), some (1, 3)), (("t", none), some (1, 7))] := by decide +kernel

/-- An unscoped statement alone, beside a scoped one. -/
example : results (start.run ([.admit (twice .shared none), .admit (twice .searchPath (some (one "t" 5)))] ++ steps 1 4 ++
    steps 0 12 ++ steps 1 12)) 0 =
    [(("t", none), some (1, 7)), (("t", some 3), some (1, 3)), (("t", none), some (1, 7))] := by decide +kernel

/-- **Violated**: two Flight statements that bring their own metastore and no search path.  The second registers its
catalog before the first looks up its table: the first reads the table of the second. -/
theorem C86_violated_inline :
    let es := [Ev.admit ⟨.shared, some (one "t" 5), [.find ("t", none)]⟩,
      .admit ⟨.shared, some (one "t" 6), [.find ("t", none)]⟩] ++ steps 0 2 ++ steps 1 2 ++ steps 0 3
    results (start.run es) 0 = [(("t", none), some (6, 7))] := by decide +kernel

/-- **Violated**: an ordinary query reads the table of a statement that brings its own metastore. -/
theorem C86_violated_mixed :
    let es := [Ev.admit ⟨.shared, none, [.find ("t", none)]⟩,
      .admit ⟨.shared, some (one "t" 6), [.find ("t", none)]⟩] ++ steps 0 2 ++ steps 1 2 ++ steps 0 3
    results (start.run es) 0 = [(("t", none), some (6, 7))] := by decide +kernel

/-- **Violated**: thread 0 listed the tables before `u` was created; its catalog replaces the newer one of thread 1, so that
a statement sent after `u` was created does not find `u`. -/
theorem C86_violated_stale :
    let es := [Ev.admit ⟨.shared, none, [.find ("t", none)]⟩, .step 0, .ddl "default" (one "u" 2),
      .admit ⟨.shared, none, [.find ("u", none)]⟩] ++ steps 1 2 ++ [.step 0] ++ steps 1 1
    results (start.run es) 1 = [(("u", none), none)] ∧
      (start.run (es.take 3)).server "default" "u" = some 2 := by decide +kernel

/-- **Violated**: the version of a table a statement made known is lost when another one registers its catalog, and the
statement fails. -/
theorem C86_violated_travel :
    let es := [Ev.admit ⟨.shared, none, [.travel "t" 3, .find ("t", some 3)]⟩,
      .admit ⟨.shared, none, [.find ("t", none)]⟩] ++ steps 0 6 ++ steps 1 2 ++ steps 0 1
    results (start.run es) 0 = [(("t", some 3), none)] := by decide +kernel

/-- **Violated**: a statement that names a table twice sees two versions of it if another statement starts between. -/
theorem C85_violated :
    let es := [Ev.admit ⟨.shared, none, [.find ("t", none), .find ("t", none)]⟩,
      .admit ⟨.shared, none, [.find ("t", none)]⟩] ++ steps 0 5 ++ [.commit 1] ++ steps 1 2 ++ steps 0 3
    results (start.run es) 0 = [(("t", none), some (1, 7)), (("t", none), some (1, 8))] := by decide +kernel

/-- **Violated, always**: a statement of the server's session looks a table up after another one registered its catalog.
Whatever it brought or listed itself, it gets the table of that name in the metastore of the other one, or fails if there is
none. -/
theorem C86_violated_inline_always (server : String → Content) (log : Nat → Nat) (mine : Option Content) (other : Content)
    (n : String) (acts : List Act) :
    let es := [Ev.admit ⟨.shared, mine, [.find (n, none)]⟩, .admit ⟨.shared, some other, acts⟩] ++ steps 0 2 ++ steps 1 2 ++ steps 0 3
    results ((Sys.init server log).run es) 0 = [((n, none), (other n).map fun p => (p, log p))] := by
  cases h : other n with
  | none =>
    simp [Sys.run, steps, List.replicate, Sys.apply, Sys.admit, Sys.init, Sys.step, Sys.content, Scope.cat, Sys.lookTh, fresh, h,
      Act.name, Th.missing, results]
  | some p =>
    simp [Sys.run, steps, List.replicate, Sys.apply, Sys.admit, Sys.init, Sys.step, Sys.content, Scope.cat, Sys.lookTh, fresh, h,
      Act.name, Th.found, results]

/-- **Violated, always**: a statement that listed the tables of the server before they changed registers its catalog after
a statement that was sent after the change registered its own.  The latter gets the tables of before the change. -/
theorem C86_violated_stale_always (server : String → Content) (log : Nat → Nat) (now : Content) (n : String) (acts : List Act) :
    let es := [Ev.admit ⟨.shared, none, acts⟩, .step 0, .ddl "default" now, .admit ⟨.shared, none, [.find (n, none)]⟩] ++
      steps 1 2 ++ [.step 0] ++ steps 1 3
    results ((Sys.init server log).run es) 1 = [((n, none), (server "default" n).map fun p => (p, log p))] := by
  cases h : server "default" n with
  | none =>
    simp [Sys.run, steps, List.replicate, Sys.apply, Sys.admit, Sys.init, Sys.step, Sys.content, Scope.cat, Sys.lookTh, fresh, h,
      Act.name, Th.missing, results]
  | some p =>
    simp [Sys.run, steps, List.replicate, Sys.apply, Sys.admit, Sys.init, Sys.step, Sys.content, Scope.cat, Sys.lookTh, fresh, h,
      Act.name, Th.found, results]

/-- **Violated, always**: a statement made a version of a table known; another one registers its catalog before the first
one looks the version up, which then fails, for every table and version. -/
theorem C86_violated_travel_always (server : String → Content) (log : Nat → Nat) (n : String) (v p : Nat) (acts : List Act)
    (hp : server "default" n = some p) :
    let es := [Ev.admit ⟨.shared, none, [.travel n v, .find (n, some v)]⟩, .admit ⟨.shared, none, acts⟩] ++
      steps 0 6 ++ steps 1 2 ++ steps 0 1
    results ((Sys.init server log).run es) 0 = [((n, some v), none)] := by
  simp [Sys.run, steps, List.replicate, Sys.apply, Sys.admit, Sys.init, Sys.step, Sys.content, Scope.cat, Sys.lookTh, fresh, hp,
    Act.name, Th.missing, Th.found, results, setHeap]

/-- **Violated, always**: a statement that names a table twice sees two versions of it if the table changes and another
statement starts between the two lookups, for every table. -/
theorem C85_violated_always (server : String → Content) (log : Nat → Nat) (n : String) (p : Nat) (acts : List Act)
    (hp : server "default" n = some p) :
    let es := [Ev.admit ⟨.shared, none, [.find (n, none), .find (n, none)]⟩, .admit ⟨.shared, none, acts⟩] ++ steps 0 5 ++
      [.commit p] ++ steps 1 2 ++ steps 0 3
    results ((Sys.init server log).run es) 0 = [((n, none), some (p, log p)), ((n, none), some (p, log p + 1))] := by
  simp [Sys.run, steps, List.replicate, Sys.apply, Sys.admit, Sys.init, Sys.step, Sys.content, Scope.cat, Sys.lookTh, fresh, hp,
    Act.name, Th.found, results, setHeap]

example : (fun _ => one "t" 1 : String → Content) "default" "t" = some 1 := rfl

end Seafowl.Session
