import Verif.Misc.Config

/-
C53: configuration validation.
-/
namespace Seafowl.Config
set_option linter.unusedSimpArgs false

/-! ### Specification -/

/-- What the SQLite driver does with a DSN: the scheme is dropped, the part before `?` names the
database, `:memory:` being one in memory; the parameter `mode=memory` asks for one in memory, too. -/
inductive Dsn : List Char → (database : List Char) → (mode : Option (List Char)) → Prop
  | plain (scheme db : List Char)
      (hs : scheme = [] ∨ scheme = "sqlite:".toList ∨ scheme = "sqlite://".toList) (hq : '?' ∉ db) :
      Dsn (scheme ++ db) db none
  | withMode (scheme db mode : List Char)
      (hs : scheme = [] ∨ scheme = "sqlite:".toList ∨ scheme = "sqlite://".toList) (hq : '?' ∉ db) :
      Dsn (scheme ++ db ++ "?mode=".toList ++ mode) db (some mode)

/-- The database named by the DSN lives in memory. -/
def DsnInMemory (dsn : List Char) : Prop :=
  ∃ db mode, Dsn dsn db mode ∧ (db = ":memory:".toList ∨ mode = some "memory".toList)

/-- The catalog is lost when the process ends. -/
def VolatileCatalog (c : Cfg) : Prop := ∃ dsn, c.catalog = some (.sqlite dsn) ∧ DsnInMemory dsn

/-- The data is lost when the process ends. -/
def VolatileStore (c : Cfg) : Prop := c.objectStore = some .memory

/-- What a valid configuration is. -/
structure Valid (c : Cfg) : Prop where
  consistent : VolatileCatalog c ↔ VolatileStore c
  s3 : ∀ b r e, c.objectStore = some (.s3 b r e) → r ≠ none ∨ e ≠ none
  memory : ∀ m, c.maxMemory = some m → 64 ≤ m

/-- The text test used for the catalog is right for its DSN. -/
def TextTestRight (c : Cfg) : Prop :=
  ∀ dsn, c.catalog = some (.sqlite dsn) → ((":memory:".toList <:+: dsn) ↔ DsnInMemory dsn)

/-! ### Proofs -/

theorem contains_iff (p s : List Char) : contains p s = true ↔ p <:+: s := by
  induction s with
  | nil => simp [contains, List.infix_nil]
  | cons c cs ih =>
    rw [contains, Bool.or_eq_true, List.isPrefixOf_iff_prefix, ih, List.infix_cons_iff]

theorem memoryName_eq : memoryName = ":memory:".toList := by decide +kernel

/-- The DSN of the catalog mentions `:memory:`. -/
def TextMemory (c : Cfg) : Prop := ∃ dsn, c.catalog = some (.sqlite dsn) ∧ ":memory:".toList <:+: dsn

/-- **C53 (what is checked).**  For every configuration: accepted exactly if the DSN mentions
`:memory:` just if the store is in memory, and the two other conditions hold. -/
theorem C53_checked (c c' : Cfg) : validateConfig c = .ok c' ↔
    ((TextMemory c ↔ VolatileStore c) ∧
      (∀ b r e, c.objectStore = some (.s3 b r e) → r ≠ none ∨ e ≠ none) ∧
      (∀ m, c.maxMemory = some m → 64 ≤ m)) ∧ c' = c := by
  have hcat : ∀ b : Bool, (match c.catalog with
      | some (.sqlite dsn) => contains memoryName dsn
      | _ => false) = b → (b = true ↔ TextMemory c) := by
    rintro b rfl
    cases hc : c.catalog with
    | none => simp [TextMemory, hc]
    | some k =>
      cases k with
      | postgres d => simp [TextMemory, hc]
      | clade d => simp [TextMemory, hc]
      | sqlite d =>
        simp only [contains_iff, TextMemory, hc, Option.some.injEq, Catalog.sqlite.injEq,
          exists_eq_left']
        rw [memoryName_eq]
  have hst : ∀ b : Bool, (match c.objectStore with
      | some .memory => true
      | _ => false) = b → (b = true ↔ VolatileStore c) := by
    rintro b rfl
    unfold VolatileStore
    split
    · rename_i h; simp [h]
    · rename_i h
      simp only [Bool.false_eq_true, false_iff]
      intro e; exact h e
  unfold validateConfig
  extract_lets m1 m2
  have h1 := hcat m1 rfl
  have h2 := hst m2 rfl
  clear_value m1 m2
  by_cases hx : xor m1 m2 = true
  · rw [if_pos hx]
    simp only [reduceCtorEq, false_iff, not_and]
    intro v
    have := v.1
    rw [← h1, ← h2] at this
    cases m1 <;> cases m2 <;> simp_all
  · rw [if_neg hx]
    have hcons : TextMemory c ↔ VolatileStore c := by
      rw [← h1, ← h2]
      cases m1 <;> cases m2 <;> simp_all
    split
    · rename_i b hs
      simp only [reduceCtorEq, false_iff, not_and]
      intro v
      rcases v.2.1 _ _ _ hs with h | h <;> exact absurd rfl h
    · rename_i hs
      have hs3 : ∀ b r e, c.objectStore = some (.s3 b r e) → r ≠ none ∨ e ≠ none := by
        intro b r e he
        cases r with
        | some r => left; simp
        | none =>
          cases e with
          | some e => right; simp
          | none => exact absurd he (hs b)
      cases hm : c.maxMemory with
      | none =>
        simp only [Except.ok.injEq]
        constructor
        · rintro rfl; exact ⟨⟨hcons, hs3, by simp [hm]⟩, rfl⟩
        · rintro ⟨_, rfl⟩; rfl
      | some m =>
        simp only
        by_cases hlt : m < minMemory
        · rw [if_pos hlt]
          unfold minMemory at hlt
          simp only [reduceCtorEq, false_iff, not_and]
          intro v
          have := v.2.2 m rfl
          omega
        · rw [if_neg hlt]
          unfold minMemory at hlt
          simp only [Except.ok.injEq]
          constructor
          · rintro rfl; exact ⟨⟨hcons, hs3, by intro k hk; cases hk; omega⟩, rfl⟩
          · rintro ⟨_, rfl⟩; rfl

/-- **C53_partial.**  A configuration is accepted exactly if it is valid, and then unchanged, as long
as the text `:memory:` tells whether the catalog is in memory.  Missing: other DSNs (see below). -/
theorem C53_partial (c c' : Cfg) (ht : TextTestRight c) :
    validateConfig c = .ok c' ↔ Valid c ∧ c' = c := by
  have hv : TextMemory c ↔ VolatileCatalog c :=
    exists_congr fun dsn => and_congr_right fun hd => ht dsn hd
  rw [C53_checked, hv]
  exact and_congr_left fun _ => ⟨fun h => ⟨h.1, h.2.1, h.2.2⟩, fun h => ⟨h.1, h.2, h.3⟩⟩

/-- **C53 is violated for every other DSN**: where the text does not tell, exactly the configurations
that mix a catalog in memory with a persistent store, or the other way round, are accepted. -/
theorem C53_violated_always (c c' : Cfg) (ht : ¬ TextTestRight c) :
    validateConfig c = .ok c' ↔
      (¬ (VolatileCatalog c ↔ VolatileStore c) ∧
        (∀ b r e, c.objectStore = some (.s3 b r e) → r ≠ none ∨ e ≠ none) ∧
        (∀ m, c.maxMemory = some m → 64 ≤ m)) ∧ c' = c := by
  have hv : TextMemory c ↔ ¬ VolatileCatalog c := by
    unfold TextTestRight at ht
    simp only [Classical.not_forall] at ht
    obtain ⟨dsn, hd, hne⟩ := ht
    have h1 : TextMemory c ↔ ":memory:".toList <:+: dsn := by
      constructor
      · rintro ⟨d, h, hm⟩
        rw [hd] at h
        cases h
        exact hm
      · exact fun h => ⟨dsn, hd, h⟩
    have h2 : VolatileCatalog c ↔ DsnInMemory dsn := by
      constructor
      · rintro ⟨d, h, hm⟩
        rw [hd] at h
        cases h
        exact hm
      · exact fun h => ⟨dsn, hd, h⟩
    rw [h1, h2]
    by_cases hi : ":memory:".toList <:+: dsn <;> by_cases hm : DsnInMemory dsn <;> simp_all
  rw [C53_checked, hv]
  have : (¬ VolatileCatalog c ↔ VolatileStore c) ↔ ¬ (VolatileCatalog c ↔ VolatileStore c) := by
    by_cases h1 : VolatileCatalog c <;> by_cases h2 : VolatileStore c <;> simp [h1, h2]
  rw [this]

/-- Which DSNs these are: those that ask for a database in memory by `mode=memory` only. -/
theorem C53_mode_wrong (c : Cfg) (dsn db : List Char) (hc : c.catalog = some (.sqlite dsn))
    (hd : Dsn dsn db (some "memory".toList)) (hn : ¬ ":memory:".toList <:+: dsn) : ¬ TextTestRight c :=
  fun h => hn ((h dsn hc).2 ⟨db, _, hd, .inr rfl⟩)

/-- A catalog named `:memory:` is always recognised, whatever else the DSN says. -/
theorem C53_recognised {dsn db : List Char} {mode : Option (List Char)} (h : Dsn dsn db mode)
    (hm : db = ":memory:".toList) : ":memory:".toList <:+: dsn := by
  subst hm
  cases h with
  | plain scheme _ hs hq => exact ⟨scheme, [], by simp⟩
  | withMode scheme _ m hs hq => exact ⟨scheme, "?mode=".toList ++ m, by simp⟩

/-- The text test is right for every DSN without parameters that is one of the three ways to write
the database in memory or does not mention it. -/
theorem C53_typical (c : Cfg)
    (h : ∀ dsn, c.catalog = some (.sqlite dsn) → '?' ∉ dsn ∧
      (¬ (":memory:".toList <:+: dsn) ∨ ∃ scheme, dsn = scheme ++ ":memory:".toList ∧
        (scheme = [] ∨ scheme = "sqlite:".toList ∨ scheme = "sqlite://".toList))) :
    TextTestRight c := by
  intro dsn hd
  obtain ⟨hq, hcase⟩ := h dsn hd
  rcases hcase with hn | ⟨scheme, rfl, hs⟩
  · refine ⟨fun h => absurd h hn, ?_⟩
    rintro ⟨db, mode, hD, hm⟩
    rcases hm with hm | hm
    · exact C53_recognised hD hm
    · subst hm
      cases hD with
      | withMode scheme _ _ hs hq' => exact absurd (by simp) hq
  · exact ⟨fun _ => ⟨_, _, Dsn.plain scheme _ hs (by decide +kernel), .inl rfl⟩,
      fun _ => (List.suffix_append _ _).isInfix⟩

/-- A rejection names the first failing check. -/
theorem C53_error (c : Cfg) (e : CfgErr) (h : validateConfig c = .error e) :
    (e = .memoryTooLow → ∃ m, c.maxMemory = some m ∧ m < 64) ∧
    (e = .s3Region → ∃ b, c.objectStore = some (.s3 b none none)) := by
  unfold validateConfig at h
  extract_lets m1 m2 at h
  clear_value m1 m2
  split at h
  · cases h; simp
  · split at h
    · rename_i b hs
      cases h; simp [hs]
    · cases hm : c.maxMemory with
      | none => simp [hm] at h
      | some m =>
        simp only [hm] at h
        by_cases hlt : m < minMemory
        · rw [if_pos hlt] at h
          cases h
          exact ⟨fun _ => ⟨m, rfl, hlt⟩, by simp⟩
        · rw [if_neg hlt] at h
          exact absurd h (by simp)

/-! ### Examples -/

deriving instance DecidableEq for Except

def dsnFile : List Char := "sqlite://seafowl.sqlite".toList
def dsnMem : List Char := "sqlite://:memory:".toList

theorem dsnMem_eq : dsnMem = "sqlite://".toList ++ ":memory:".toList := by decide +kernel

theorem dsnMem_inMemory : DsnInMemory dsnMem := by
  rw [dsnMem_eq]
  exact ⟨_, _, Dsn.plain _ _ (.inr (.inr rfl)) (by decide +kernel), .inl rfl⟩

example : validateConfig ⟨some .memory, some (.sqlite dsnMem), some 64⟩
    = .ok ⟨some .memory, some (.sqlite dsnMem), some 64⟩ := by decide +kernel
example : TextTestRight ⟨some .memory, some (.sqlite dsnMem), some 64⟩ := by
  intro dsn h
  cases h
  refine ⟨fun _ => dsnMem_inMemory, fun _ => ?_⟩
  rw [dsnMem_eq]
  exact (List.suffix_append _ _).isInfix
example : validateConfig ⟨some (.localFs ['d']), some (.sqlite dsnMem), none⟩ = .error .mixed := by
  decide +kernel
example : validateConfig ⟨some .memory, some (.sqlite dsnFile), none⟩ = .error .mixed := by
  decide +kernel
example : validateConfig ⟨some (.s3 ['b'] none none), some (.postgres []), none⟩ = .error .s3Region := by
  decide +kernel
example : validateConfig ⟨none, none, some 63⟩ = .error .memoryTooLow := by decide +kernel

/-! ### Violations -/

/-- **C53 is violated**: a catalog in memory, asked for with `mode=memory`, is accepted together with
a store on disk: after a restart the data is there and the catalog is not. -/
theorem C53_violated_mode :
    let c : Cfg := ⟨some (.localFs ['d']), some (.sqlite "sqlite://x?mode=memory".toList), none⟩
    VolatileCatalog c ∧ ¬ VolatileStore c ∧ validateConfig c = .ok c := by
  refine ⟨⟨_, rfl, ['x'], some "memory".toList, ?_, .inr rfl⟩, by simp [VolatileStore], by
    decide +kernel⟩
  have e : "sqlite://x?mode=memory".toList
      = "sqlite://".toList ++ ['x'] ++ "?mode=".toList ++ "memory".toList := by decide +kernel
  rw [e]
  exact Dsn.withMode _ _ _ (.inr (.inr rfl)) (by decide)

/-- …and a file whose path happens to contain `:memory:` is rejected together with a store on disk,
and accepted together with one in memory. -/
theorem C53_violated_path :
    let dsn := "sqlite:///db/:memory:/x".toList
    (∀ db mode, Dsn dsn db mode → mode = none ∧ db ≠ ":memory:".toList) ∧
    validateConfig ⟨some (.localFs ['d']), some (.sqlite dsn), none⟩ = .error .mixed ∧
    validateConfig ⟨some .memory, some (.sqlite dsn), none⟩
      = .ok ⟨some .memory, some (.sqlite dsn), none⟩ := by
  refine ⟨?_, by decide +kernel, by decide +kernel⟩
  intro db mode h
  generalize hd : "sqlite:///db/:memory:/x".toList = dsn at h
  cases h with
  | plain scheme _ hs hq =>
    refine ⟨rfl, ?_⟩
    rintro rfl
    have := congrArg List.length hd
    rcases hs with rfl | rfl | rfl <;> simp at this
  | withMode scheme _ m hs hq =>
    exfalso
    have hin : '?' ∈ "sqlite:///db/:memory:/x".toList := by
      rw [hd]; simp
    exact absurd hin (by decide +kernel)

end Seafowl.Config
