import Verif.Store.Wrapped

/-!
# Concurrent commits (C30)

A commit of a table version is the creation of its log entry with one of the conditional operations.
A history is the list of the operations of all writers in the order in which they take effect.
-/

namespace Seafowl.Store.Wrapped

variable {γ : Type}

/-- The three ways of committing the log entry `v`. -/
inductive Kind where
  | putCreate
  | copyIfNotExists
  | renameIfNotExists
deriving DecidableEq, Repr

/-- `op` tries to commit the log entry `v` (in the way `k`). -/
def IsCommit (v : Path) : Kind → Op γ → Prop
  | .putCreate, .putCreate p _ => p = v
  | .copyIfNotExists, .copyIfNotExists a b => b = v ∧ a ≠ v
  | .renameIfNotExists, .renameIfNotExists a b => b = v ∧ a ≠ v
  | _, _ => False

/-- `op` does not write, move or delete the log entry `v`. -/
def Elsewhere (v : Path) : Op γ → Prop
  | .put p _ => p ≠ v
  | .putCreate p _ => p ≠ v
  | .copy _ b => b ≠ v
  | .copyIfNotExists _ b => b ≠ v
  | .rename a b => a ≠ v ∧ b ≠ v
  | .renameIfNotExists a b => a ≠ v ∧ b ≠ v
  | .delete p => p ≠ v

/-- The combinations of configuration and operation that are not turned into overwrites. -/
def Guarded (cfg : Config) (k : Kind) : Prop :=
  cfg ≠ .loc true ∧ ¬ (cfg = .s3 ∧ k = .renameIfNotExists)

/-- How many operations of a history that commit `v` in the way `k` succeed. -/
def successes (cfg : Config) (v : Path) : Objects γ → List (Op γ × Bool) → Nat
  | _, [] => 0
  | s, (op, commit) :: rest =>
    (if commit && (step cfg s op).2 then 1 else 0) + successes cfg v (step cfg s op).1 rest

/-- A history in which log entry `v` is only touched by commits in the way `k`; the commits are marked. -/
def Commits (v : Path) (k : Kind) (h : List (Op γ × Bool)) : Prop :=
  ∀ x ∈ h, (x.2 = true ∧ IsCommit v k x.1) ∨ (x.2 = false ∧ Elsewhere v x.1)

theorem elsewhere_step (cfg : Config) (s : Objects γ) (v : Path) (op : Op γ) (h : Elsewhere v op) :
    (step cfg s op).1 v = s v := by
  have hset : ∀ (s : Objects γ) (p : Path) c, p ≠ v → set s p c v = s v := by
    intro s p c hp; simp [set, Ne.symm hp]
  have hin : ∀ op : Op γ, Elsewhere v op → (inner s op).1 v = s v := by
    intro op h
    cases op <;> simp only [inner] <;> (repeat' split) <;> simp_all [Elsewhere]
  apply hin
  cases op <;> simp only [wrap] <;> (try split) <;> simp_all [Elsewhere]

theorem commit_step (cfg : Config) (s : Objects γ) (v : Path) (k : Kind) (hg : Guarded cfg k) (op : Op γ)
    (h : IsCommit v k op) :
    ((s v).isSome → (step cfg s op).1 v = s v ∧ (step cfg s op).2 = false) ∧
    (s v = none → ((step cfg s op).2 = true → ((step cfg s op).1 v).isSome) ∧
      ((step cfg s op).2 = false → (step cfg s op).1 v = none)) := by
  obtain ⟨h1, h2⟩ := hg
  cases k with
  | putCreate =>
    cases op <;> simp only [IsCommit] at h
    subst h
    have hw : ∀ p c, wrap cfg (Op.putCreate p c : Op γ) = .putCreate p c := by
      intro p c; simp only [wrap]
      all_goals (split <;> first | exact absurd rfl h1 | rfl)
    simp only [step, hw, inner]
    refine ⟨fun hs => ?_, fun hs => ?_⟩ <;> simp [hs, set]
  | copyIfNotExists =>
    cases op <;> simp only [IsCommit] at h
    obtain ⟨rfl, hne⟩ := h
    have hw : ∀ a b, wrap cfg (Op.copyIfNotExists a b : Op γ) = .copyIfNotExists a b := by
      intro a b; simp only [wrap]
      all_goals (split <;> first | exact absurd rfl h1 | rfl)
    simp only [step, hw, inner]
    refine ⟨fun hs => ?_, fun hs => ?_⟩
    · split <;> simp [hs]
    · split <;> simp [hs, set]
  | renameIfNotExists =>
    cases op <;> simp only [IsCommit] at h
    obtain ⟨rfl, hne⟩ := h
    have hw : ∀ a b, wrap cfg (Op.renameIfNotExists a b : Op γ) = .renameIfNotExists a b := by
      intro a b; simp only [wrap]; split
      · exact absurd ⟨rfl, rfl⟩ h2
      · exact absurd rfl h1
      · rfl
    simp only [step, hw, inner]
    refine ⟨fun hs => ?_, fun hs => ?_⟩
    · split <;> simp [hs]
    · split <;> simp [hs, set]

/-- **C30, partial**: in configurations and with operations that are not turned into overwrites, at most
one commit of a version succeeds, and none if the version exists. -/
theorem C30_at_most_one_partial (cfg : Config) (v : Path) (k : Kind) (hg : Guarded cfg k) (s : Objects γ)
    (h : List (Op γ × Bool)) (hc : Commits v k h) :
    successes cfg v s h ≤ (if (s v).isSome then 0 else 1) := by
  induction h generalizing s with
  | nil => simp [successes]
  | cons x h ih =>
    have ih := fun s => ih s (fun y hy => hc y (by simp [hy]))
    obtain ⟨op, c⟩ := x
    simp only [successes]
    rcases hc (op, c) (by simp) with ⟨hc1, hc2⟩ | ⟨hc1, hc2⟩
    · simp only at hc1 hc2
      subst hc1
      obtain ⟨a, b⟩ := commit_step cfg s v k hg op hc2
      have ihs := ih (step cfg s op).1
      cases hv : (s v).isSome with
      | true =>
        obtain ⟨e1, e2⟩ := a hv
        rw [e1, hv] at ihs
        simp only [e2, Bool.and_false, Bool.false_eq_true, if_false, if_true] at ihs ⊢
        omega
      | false =>
        have hn : s v = none := by simpa using hv
        obtain ⟨b1, b2⟩ := b hn
        cases hr : (step cfg s op).2 with
        | true =>
          rw [b1 hr] at ihs
          simp only [if_true, Bool.and_self, Bool.false_eq_true, if_false] at ihs ⊢
          omega
        | false =>
          rw [b2 hr] at ihs
          simp only [Option.isSome_none, Bool.and_false, Bool.false_eq_true, if_false] at ihs ⊢
          omega
    · simp only at hc1 hc2
      subst hc1
      have ihs := ih (step cfg s op).1
      rw [elsewhere_step cfg s v op hc2] at ihs
      simp only [Bool.false_and, Bool.false_eq_true, if_false]
      omega

/-- **C30, partial**: and the entry that was written first is never replaced. -/
theorem C30_never_replaced_partial (cfg : Config) (v : Path) (k : Kind) (hg : Guarded cfg k) (s : Objects γ)
    (h : List (Op γ × Bool)) (hc : Commits v k h) (c : γ) (hs : s v = some c) :
    run cfg s (h.map (·.1)) v = some c := by
  induction h generalizing s with
  | nil => exact hs
  | cons x h ih =>
    refine ih (step cfg s x.1).1 (fun y hy => hc y (by simp [hy])) ?_
    rcases hc x (by simp) with ⟨_, h2⟩ | ⟨_, h2⟩
    · rw [((commit_step cfg s v k hg x.1 h2).1 (by simp [hs])).1, hs]
    · rw [elsewhere_step cfg s v x.1 h2, hs]

/-- **C30**: what a successful commit does, in every configuration: the log entry has the contents that
were to be committed, a rename removes the temporary file, and nothing else changes. -/
theorem C30_commit_effect (cfg : Config) (s : Objects γ) (v : Path) (k : Kind) (op : Op γ) (h : IsCommit v k op)
    (hok : (step cfg s op).2 = true) :
    ∃ c, (step cfg s op).1 v = some c ∧
      (match op with
        | .putCreate _ c' => c = c' ∧ ∀ p, p ≠ v → (step cfg s op).1 p = s p
        | .copyIfNotExists a _ => s a = some c ∧ ∀ p, p ≠ v → (step cfg s op).1 p = s p
        | .renameIfNotExists a _ => s a = some c ∧ (step cfg s op).1 a = none ∧
            ∀ p, p ≠ v → p ≠ a → (step cfg s op).1 p = s p
        | _ => False) := by
  cases op <;> cases k <;> simp only [IsCommit] at h
  · next p c =>
    subst h
    simp only [step, wrap] at hok ⊢
    cases cfg with
    | loc b =>
      cases b <;> simp only [inner] at hok ⊢
      · split at hok
        · cases hok
        · next hn => simp only [hn]; exact ⟨c, by simp [set], rfl, fun q hq => by simp [set, hq]⟩
      · exact ⟨c, by simp [set], rfl, fun q hq => by simp [set, hq]⟩
    | _ =>
      simp only [inner] at hok ⊢
      split at hok
      · cases hok
      · next hn => simp only [hn]; exact ⟨c, by simp [set], rfl, fun q hq => by simp [set, hq]⟩
  · next a b =>
    obtain ⟨rfl, hne⟩ := h
    have hin : ∀ o : Op γ, (o = .copy a b ∨ o = .copyIfNotExists a b) → (inner s o).2 = true →
        ∃ c, (inner s o).1 b = some c ∧ s a = some c ∧ ∀ p, p ≠ b → (inner s o).1 p = s p := by
      rintro o (rfl | rfl) ho
      · simp only [inner] at ho ⊢
        split at ho
        · cases ho
        · next c hc => exact ⟨c, by simp [set], hc, fun q hq => by simp [set, hq]⟩
      · simp only [inner] at ho ⊢
        split at ho
        · cases ho
        · next c hc =>
          split at ho
          · cases ho
          · next hn => simp only [hn, if_false]; exact ⟨c, by simp [set], hc, fun q hq => by simp [set, hq]⟩
    apply hin _ _ hok
    simp only [wrap]; split <;> simp
  · next a b =>
    obtain ⟨rfl, hne⟩ := h
    have hin : ∀ o : Op γ, (o = .rename a b ∨ o = .renameIfNotExists a b) → (inner s o).2 = true →
        ∃ c, (inner s o).1 b = some c ∧ s a = some c ∧ (inner s o).1 a = none ∧
          ∀ p, p ≠ b → p ≠ a → (inner s o).1 p = s p := by
      rintro o (rfl | rfl) ho
      · simp only [inner] at ho ⊢
        split at ho
        · cases ho
        · next c hc => exact ⟨c, by simp [set], hc, by simp [set, hne], fun q hq hq2 => by simp [set, hq, hq2]⟩
      · simp only [inner] at ho ⊢
        split at ho
        · cases ho
        · next c hc =>
          split at ho
          · cases ho
          · next hn =>
            simp only [hn, if_false]
            exact ⟨c, by simp [set], hc, by simp [set, hne], fun q hq hq2 => by simp [set, hq, hq2]⟩
    apply hin _ _ hok
    simp only [wrap]; split <;> simp

/-- Two writers write temporary files 1 and 2 and commit version 10 by renaming them: one succeeds. -/
example : successes Config.memory 10 (fun _ => none)
    [(.put 1 "A", false), (.put 2 "B", false), (.renameIfNotExists 2 10, true), (.renameIfNotExists 1 10, true)] = 1 ∧
    run Config.memory (fun _ => none)
      [.put 1 "A", .put 2 "B", .renameIfNotExists 2 10, .renameIfNotExists 1 10] 10 = some "B" := by decide

/-- Two writers prepare their log entries in the files 1 and 2 and commit version 10. -/
def twoWriters : Kind → List (Op String × Bool)
  | .putCreate => [(.put 1 "A", false), (.put 2 "B", false), (.putCreate 10 "A", true), (.putCreate 10 "B", true)]
  | .copyIfNotExists =>
    [(.put 1 "A", false), (.put 2 "B", false), (.copyIfNotExists 1 10, true), (.copyIfNotExists 2 10, true)]
  | .renameIfNotExists =>
    [(.put 1 "A", false), (.put 2 "B", false), (.renameIfNotExists 1 10, true), (.renameIfNotExists 2 10, true)]

/-- **C30 is violated** in all other combinations (a local store with `disable_hardlinks`, and renaming on
S3): two writers commit the same version, both are told that they succeeded, and the second one has
replaced the log entry of the first one. -/
theorem C30_violated (cfg : Config) (k : Kind) (hg : ¬ Guarded cfg k) :
    ∃ (h : List (Op String × Bool)), Commits 10 k h ∧ successes cfg 10 (fun _ => none) h = 2 ∧
      ∃ h1 h2, h = h1 ++ h2 ∧ run cfg (fun _ => none) (h1.map (·.1)) 10 = some "A" ∧
        run cfg (fun _ => none) (h.map (·.1)) 10 = some "B" := by
  have hcase : cfg = .loc true ∨ (cfg = .s3 ∧ k = .renameIfNotExists) := by
    by_cases h1 : cfg = .loc true
    · exact Or.inl h1
    · refine Or.inr (Decidable.byContradiction fun h2 => hg ⟨h1, h2⟩)
  refine ⟨twoWriters k, ?_, ?_, (twoWriters k).take 3, (twoWriters k).drop 3,
    (List.take_append_drop 3 (twoWriters k)).symm, ?_, ?_⟩
  · intro x hx
    cases k <;> simp only [twoWriters, List.mem_cons, List.not_mem_nil, or_false] at hx <;>
      rcases hx with rfl | rfl | rfl | rfl <;> simp [IsCommit, Elsewhere]
  all_goals
    rcases hcase with rfl | ⟨rfl, rfl⟩
    · cases k <;> decide
    · decide

end Seafowl.Store.Wrapped
