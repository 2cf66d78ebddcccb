/-
C81: the statements Seafowl parses itself are exactly those of their grammar, and mean what it says.
-/
import Verif.Sql.ParserProps

set_option linter.unusedSimpArgs false

namespace Seafowl.Sql

/-! ### Specification: the grammar -/

/-- The crate's parser `p` reads `a` at the front of `w` and leaves `r`. -/
def Took (p : List Tok → Option (α × Nat)) (w : List Tok) (a : α) (r : List Tok) : Prop :=
  w ≠ [] ∧ ∃ k, p w = some (a, k) ∧ r = w.drop (k + 1)

/-- A clause of COPY. -/
inductive Clause
  | to (s : String)
  | stored (x : Nat)
  | parts (x : Nat)
  | opts (x : Nat)
  deriving DecidableEq, Repr

/-- What kind of clause it is. -/
def Clause.kind : Clause → Nat
  | .to _ => 0
  | .stored _ => 1
  | .parts _ => 2
  | .opts _ => 3

/-- A sequence of clauses up to the end of the input or a semicolon, which belongs to the statement. -/
inductive Clauses (N : Native) : List Tok → List Clause → List Tok → Prop
  | eof : Clauses N [] [] []
  | semi (r : List Tok) : Clauses N (.semi :: r) [] r
  | to (s : String) (w : List Tok) (cs : List Clause) (r : List Tok) :
      Clauses N w cs r → Clauses N (.kw .to :: .str s :: w) (.to s :: cs) r
  | stored (w w' : List Tok) (x : Nat) (cs : List Clause) (r : List Tok) :
      Took N.fileFormat w x w' → Clauses N w' cs r →
      Clauses N (.kw .stored :: .kw .as :: w) (.stored x :: cs) r
  | parts (w w' : List Tok) (x : Nat) (cs : List Clause) (r : List Tok) :
      Took N.partitions w x w' → Clauses N w' cs r →
      Clauses N (.kw .partitioned :: .kw .by :: w) (.parts x :: cs) r
  | opts (w w' : List Tok) (x : Nat) (cs : List Clause) (r : List Tok) :
      Took N.options w x w' → Clauses N w' cs r →
      Clauses N (.kw .options :: w) (.opts x :: cs) r

/-- No clause occurs twice. -/
def Once (cs : List Clause) : Prop := (cs.map Clause.kind).Nodup

/-- The source of a COPY: a query in parentheses, or the name of a table. -/
inductive Source (N : Native) : List Tok → CopySource → List Tok → Prop
  | query (w r : List Tok) (q : Nat) :
      Took N.query w q (.rparen :: r) → Source N (.lparen :: w) (.query q) r
  | table (w r : List Tok) (n : Name) :
      (∀ w', w ≠ .lparen :: w') → Took N.objectName w n r → Source N w (.relation n) r

/-- `x` is the value of a clause, if it was given. -/
def Given (mk : α → Clause) (cs : List Clause) : Option α → Prop
  | some x => mk x ∈ cs
  | none => ∀ x, mk x ∉ cs

/-- An optional OR REPLACE. -/
def orRep : Bool → List Tok
  | true => [.kw .or, .kw .replace]
  | false => []

/-- The statements: tokens, meaning, tokens left. -/
inductive Stm (N : Native) : List Tok → Stmt → List Tok → Prop
  | truncate (w n r) : Took N.objectName w n r →
      Stm N (.kw .truncate :: .kw .table :: w) (.truncate n none true) r
  | vacuumTable (w n r) : Took N.objectName w n r →
      Stm N (.kw .vacuum :: .kw .table :: w) (.truncate n none false) r
  | vacuumDb (w d ns r) : Took N.objectName w (d :: ns) r →
      Stm N (.kw .vacuum :: .kw .database :: w) (.truncate [] (some d) false) r
  | convert (loc w n r) : Took N.objectName w n r →
      Stm N (.kw .convert :: .str loc :: .kw .to :: .kw .delta :: w) (.convert loc n) r
  | copy (w src w' cs r t pb sa op) : Source N w src w' → Clauses N w' cs r → Once cs →
      .to t ∈ cs → Given .parts cs pb → Given .stored cs sa → Given .opts cs op →
      Stm N (.kw .copy :: w) (.copyTo src t pb sa op) r
  | function (o w n body r) : Took N.objectName w n (.kw .as :: .str body :: r) →
      Stm N (.kw .create :: (orRep o ++ .kw .function :: w)) (.createFunction o n body) r
  | external (o w x r) : Took N.externalTable w x r →
      Stm N (.kw .create :: (orRep o ++ .kw .external :: w)) (.createExternal false x) r
  | unbounded (o w x r) : Took N.externalTable w x r →
      Stm N (.kw .create :: (orRep o ++ .kw .unbounded :: .kw .external :: w)) (.createExternal true x) r
  | create (o w x r) : Took N.create w x r →
      (∀ w', w ≠ .kw .function :: w') → (∀ w', w ≠ .kw .external :: w') →
      (∀ w', w ≠ .kw .unbounded :: w') → (o = false → ∀ w', w ≠ .kw .or :: .kw .replace :: w') →
      Stm N (.kw .create :: (orRep o ++ w)) (.nativeCreate x) r
  | native (w k r) : Took N.statement w k r →
      (∀ w', w ≠ .kw .truncate :: w') → (∀ w', w ≠ .kw .vacuum :: w') →
      (∀ w', w ≠ .kw .convert :: w') → (∀ w', w ≠ .kw .copy :: w') →
      (∀ w', w ≠ .kw .create :: w') → Stm N w (.native k) r

/-! ### Proof -/

theorem took_iff {p : List Tok → Option (α × Nat)} {w r : List Tok} {a : α} :
    run p w = some (a, r) ↔ Took p w a r := by
  unfold Took run
  cases w with
  | nil => simp
  | cons t w =>
    simp only [ne_eq, reduceCtorEq, not_false_eq_true, true_and, Option.map_eq_some_iff, Prod.mk.injEq]
    constructor
    · rintro ⟨⟨a', k⟩, h1, rfl, rfl⟩
      exact ⟨k, h1, rfl⟩
    · rintro ⟨k, h1, rfl⟩
      exact ⟨(a, k), h1, rfl, rfl⟩

/-- Entering a clause. -/
def CopyB.set (b : CopyB) : Clause → CopyB
  | .to s => { b with target := some s }
  | .stored x => { b with storedAs := some x }
  | .parts x => { b with partitionedBy := some x }
  | .opts x => { b with options := some x }

/-- The kind of clause is there. -/
def CopyB.has (b : CopyB) : Nat → Bool
  | 0 => b.target.isSome
  | 1 => b.storedAs.isSome
  | 2 => b.partitionedBy.isSome
  | _ => b.options.isSome

theorem CopyB.has_set (b : CopyB) (c d : Clause) :
    (b.set c).has d.kind = (b.has d.kind || decide (c.kind = d.kind)) := by
  cases c <;> cases d <;> simp [CopyB.set, CopyB.has, Clause.kind]

theorem took_shorter {p : List Tok → Option (α × Nat)} {w r : List Tok} {a : α} (h : Took p w a r) :
    r.length < w.length := by
  obtain ⟨hne, k, -, rfl⟩ := h
  cases w with
  | nil => exact absurd rfl hne
  | cons t w => simp only [List.drop_succ_cons, List.length_drop, List.length_cons]; omega

/-- The loop on well-formed clauses. -/
theorem copyLoop_of_clauses {N : Native} {w : List Tok} {cs : List Clause} {r : List Tok}
    (h : Clauses N w cs r) : ∀ (f : Nat) (b : CopyB), w.length < f → Once cs →
      (∀ c ∈ cs, b.has c.kind = false) → copyLoop N f b w = some (cs.foldl CopyB.set b, r) := by
  have step : ∀ (b : CopyB) (c : Clause) (cs : List Clause), Once (c :: cs) →
      (∀ d ∈ c :: cs, b.has d.kind = false) → Once cs ∧ ∀ d ∈ cs, (b.set c).has d.kind = false := by
    intro b c cs ho hb
    unfold Once at ho ⊢
    simp only [List.map_cons, List.nodup_cons, List.mem_map] at ho
    refine ⟨ho.2, fun d hd => ?_⟩
    rw [CopyB.has_set, hb d (by simp [hd])]
    simp only [Bool.false_or, decide_eq_false_iff_not]
    exact fun e => ho.1 ⟨d, hd, e.symm⟩
  induction h with
  | eof =>
    intro f b hf _ _
    cases f with
    | zero => omega
    | succ f => simp [copyLoop]
  | semi r =>
    intro f b hf _ _
    cases f with
    | zero => omega
    | succ f => simp [copyLoop]
  | to s w cs r _ ih =>
    intro f b hf ho hb
    cases f with
    | zero => omega
    | succ f =>
      obtain ⟨h1, h2⟩ := step b _ _ ho hb
      have hk : b.target.isSome = false := hb (.to s) (by simp)
      simp only [copyLoop, hk, Bool.false_eq_true, if_false, List.foldl_cons]
      exact ih f (b.set (.to s)) (by simp only [List.length_cons] at hf; omega) h1 h2
  | stored w w' x cs r ht _ ih =>
    intro f b hf ho hb
    cases f with
    | zero => omega
    | succ f =>
      obtain ⟨h1, h2⟩ := step b _ _ ho hb
      have hk : b.storedAs.isSome = false := hb (.stored x) (by simp)
      have hl := took_shorter ht
      simp only [copyLoop, hk, Bool.false_eq_true, if_false, List.foldl_cons, took_iff.2 ht]
      exact ih f (b.set (.stored x)) (by simp only [List.length_cons] at hf; omega) h1 h2
  | parts w w' x cs r ht _ ih =>
    intro f b hf ho hb
    cases f with
    | zero => omega
    | succ f =>
      obtain ⟨h1, h2⟩ := step b _ _ ho hb
      have hk : b.partitionedBy.isSome = false := hb (.parts x) (by simp)
      have hl := took_shorter ht
      simp only [copyLoop, hk, Bool.false_eq_true, if_false, List.foldl_cons, took_iff.2 ht]
      exact ih f (b.set (.parts x)) (by simp only [List.length_cons] at hf; omega) h1 h2
  | opts w w' x cs r ht _ ih =>
    intro f b hf ho hb
    cases f with
    | zero => omega
    | succ f =>
      obtain ⟨h1, h2⟩ := step b _ _ ho hb
      have hk : b.options.isSome = false := hb (.opts x) (by simp)
      have hl := took_shorter ht
      simp only [copyLoop, hk, Bool.false_eq_true, if_false, List.foldl_cons, took_iff.2 ht]
      exact ih f (b.set (.opts x)) (by simp only [List.length_cons] at hf; omega) h1 h2

/-- What the loop accepts are well-formed clauses. -/
theorem clauses_of_copyLoop (N : Native) : ∀ (f : Nat) (b : CopyB) (w : List Tok) (b' : CopyB) (r : List Tok),
    copyLoop N f b w = some (b', r) → ∃ cs, Clauses N w cs r ∧ Once cs ∧
      (∀ c ∈ cs, b.has c.kind = false) ∧ b' = cs.foldl CopyB.set b := by
  have step : ∀ (b : CopyB) (c : Clause) (cs : List Clause), b.has c.kind = false → Once cs →
      (∀ d ∈ cs, (b.set c).has d.kind = false) →
      Once (c :: cs) ∧ ∀ d ∈ c :: cs, b.has d.kind = false := by
    intro b c cs hc ho hb
    have h1 : ∀ d ∈ cs, b.has d.kind = false ∧ c.kind ≠ d.kind := by
      intro d hd
      have := hb d hd
      rw [CopyB.has_set] at this
      simpa using this
    refine ⟨?_, ?_⟩
    · unfold Once at ho ⊢
      simp only [List.map_cons, List.nodup_cons, List.mem_map]
      exact ⟨fun ⟨d, hd, e⟩ => (h1 d hd).2 e.symm, ho⟩
    · intro d hd
      rcases List.mem_cons.1 hd with rfl | hd
      · exact hc
      · exact (h1 d hd).1
  intro f
  induction f with
  | zero => intro b w b' r h; simp [copyLoop] at h
  | succ f ih =>
    intro b w b' r h
    unfold copyLoop at h
    split at h
    · split at h
      · simp at h
      · rename_i w hb
        cases hr : run N.fileFormat w with
        | none => rw [hr] at h; simp at h
        | some q =>
          obtain ⟨x, w'⟩ := q
          rw [hr] at h
          obtain ⟨cs, h1, h2, h3, h4⟩ := ih (b.set (.stored x)) w' b' r h
          obtain ⟨h5, h6⟩ := step b (.stored x) cs (by simpa [CopyB.has, Clause.kind] using hb) h2 h3
          exact ⟨.stored x :: cs, .stored w w' x cs r (took_iff.1 hr) h1, h5, h6, h4⟩
    · rename_i s w
      split at h
      · simp at h
      · rename_i hb
        obtain ⟨cs, h1, h2, h3, h4⟩ := ih (b.set (.to s)) w b' r h
        obtain ⟨h5, h6⟩ := step b (.to s) cs (by simpa [CopyB.has, Clause.kind] using hb) h2 h3
        exact ⟨.to s :: cs, .to s w cs r h1, h5, h6, h4⟩
    · split at h
      · simp at h
      · rename_i w hb
        cases hr : run N.partitions w with
        | none => rw [hr] at h; simp at h
        | some q =>
          obtain ⟨x, w'⟩ := q
          rw [hr] at h
          obtain ⟨cs, h1, h2, h3, h4⟩ := ih (b.set (.parts x)) w' b' r h
          obtain ⟨h5, h6⟩ := step b (.parts x) cs (by simpa [CopyB.has, Clause.kind] using hb) h2 h3
          exact ⟨.parts x :: cs, .parts w w' x cs r (took_iff.1 hr) h1, h5, h6, h4⟩
    · split at h
      · simp at h
      · rename_i w hb
        cases hr : run N.options w with
        | none => rw [hr] at h; simp at h
        | some q =>
          obtain ⟨x, w'⟩ := q
          rw [hr] at h
          obtain ⟨cs, h1, h2, h3, h4⟩ := ih (b.set (.opts x)) w' b' r h
          obtain ⟨h5, h6⟩ := step b (.opts x) cs (by simpa [CopyB.has, Clause.kind] using hb) h2 h3
          exact ⟨.opts x :: cs, .opts w w' x cs r (took_iff.1 hr) h1, h5, h6, h4⟩
    · simp only [Option.some.injEq, Prod.mk.injEq] at h
      obtain ⟨rfl, rfl⟩ := h
      exact ⟨[], .eof, List.nodup_nil, by simp, rfl⟩
    · simp only [Option.some.injEq, Prod.mk.injEq] at h
      obtain ⟨rfl, rfl⟩ := h
      exact ⟨[], .semi _, List.nodup_nil, by simp, rfl⟩
    · simp at h

/-- What is entered is what was given. -/
theorem given_foldl : ∀ (cs : List Clause) (b : CopyB), Once cs → (∀ c ∈ cs, b.has c.kind = false) →
    (∀ t, (cs.foldl CopyB.set b).target = some t ↔ b.target = some t ∨ .to t ∈ cs) ∧
    (∀ t, (cs.foldl CopyB.set b).storedAs = some t ↔ b.storedAs = some t ∨ .stored t ∈ cs) ∧
    (∀ t, (cs.foldl CopyB.set b).partitionedBy = some t ↔ b.partitionedBy = some t ∨ .parts t ∈ cs) ∧
    (∀ t, (cs.foldl CopyB.set b).options = some t ↔ b.options = some t ∨ .opts t ∈ cs) := by
  intro cs
  induction cs with
  | nil => intro b _ _; simp
  | cons c cs ih =>
    intro b ho hb
    unfold Once at ho
    simp only [List.map_cons, List.nodup_cons, List.mem_map] at ho
    have h2 : ∀ d ∈ cs, (b.set c).has d.kind = false := by
      intro d hd
      rw [CopyB.has_set, hb d (by simp [hd])]
      simp only [Bool.false_or, decide_eq_false_iff_not]
      exact fun e => ho.1 ⟨d, hd, e.symm⟩
    have hb0 := hb c (by simp)
    obtain ⟨i1, i2, i3, i4⟩ := ih (b.set c) ho.2 h2
    simp only [List.foldl_cons]
    cases c <;> simp only [CopyB.has, Clause.kind, Option.isSome_eq_false_iff, Option.isNone_iff_eq_none] at hb0 <;>
      (refine ⟨fun t => (i1 t).trans ?_, fun t => (i2 t).trans ?_, fun t => (i3 t).trans ?_,
        fun t => (i4 t).trans ?_⟩ <;>
       simp [CopyB.set, hb0, eq_comm])

theorem given_iff {α} (mk : α → Clause) (cs : List Clause) (v : Option α)
    (h : ∀ t, v = some t ↔ mk t ∈ cs) (g : Option α) : Given mk cs g ↔ (g = v ∨ ∃ a b, g = some a ∧ v = some b ∧ mk a ∈ cs) := by
  cases g with
  | none =>
    cases v with
    | none => simp [Given]; intro x hx; have := (h x).2 hx; simp at this
    | some b => simp [Given]; exact ⟨b, (h b).1 rfl⟩
  | some a =>
    simp only [Given]
    constructor
    · intro hm; exact Or.inl ((h a).2 hm).symm
    · rintro (e | ⟨a', b, e1, -, h3⟩)
      · exact (h a).1 e.symm
      · injection e1 with e1; rw [e1]; exact h3

theorem given_eq {α} {mk : α → Clause} {cs : List Clause} {v : Option α}
    (h : ∀ t, v = some t ↔ mk t ∈ cs) {g : Option α} : Given mk cs g ↔ g = v := by
  rw [given_iff mk cs v h]
  constructor
  · rintro (e | ⟨a, b, rfl, -, h3⟩)
    · exact e
    · exact ((h a).2 h3).symm
  · exact Or.inl

theorem source_iff (N : Native) (w : List Tok) (src : CopySource) (r : List Tok) :
    copySource N w = some (src, r) ↔ Source N w src r := by
  constructor
  · intro h
    unfold copySource at h
    split at h
    · rename_i w
      split at h
      · rename_i q r' hr
        simp only [Option.some.injEq, Prod.mk.injEq] at h
        obtain ⟨rfl, rfl⟩ := h
        exact .query w r' q (took_iff.1 hr)
      · simp at h
    · rename_i hne
      rw [Option.map_eq_some_iff] at h
      obtain ⟨⟨n, r'⟩, h1, h2⟩ := h
      simp only [Prod.mk.injEq] at h2
      obtain ⟨rfl, rfl⟩ := h2
      exact .table w r' n (fun w' e => hne w' e) (took_iff.1 h1)
  · intro h
    cases h with
    | query w r q h => simp [copySource, took_iff.2 h]
    | table w r n hne h =>
      unfold copySource
      split
      · exact absurd rfl (hne _)
      · rw [took_iff.2 h]; rfl

theorem copy_iff (N : Native) (w : List Tok) (s : Stmt) (r : List Tok) :
    parseCopy N w = some (s, r) ↔
      ∃ src w' cs t pb sa op, Source N w src w' ∧ Clauses N w' cs r ∧ Once cs ∧ .to t ∈ cs ∧
        Given .parts cs pb ∧ Given .stored cs sa ∧ Given .opts cs op ∧ s = .copyTo src t pb sa op := by
  have fresh : ∀ cs : List Clause, ∀ c ∈ cs, ({} : CopyB).has c.kind = false := by
    intro cs c _; cases c <;> rfl
  constructor
  · intro h
    unfold parseCopy at h
    split at h
    · simp at h
    · rename_i src w' hs
      split at h
      · simp at h
      · rename_i b r' hl
        split at h
        · simp at h
        · rename_i t ht
          simp only [Option.some.injEq, Prod.mk.injEq] at h
          obtain ⟨rfl, rfl⟩ := h
          obtain ⟨cs, h1, h2, h3, h4⟩ := clauses_of_copyLoop N _ _ _ _ _ hl
          obtain ⟨g1, g2, g3, g4⟩ := given_foldl cs {} h2 h3
          rw [← h4] at g1 g2 g3 g4
          simp only [reduceCtorEq, false_or] at g1 g2 g3 g4
          exact ⟨src, w', cs, t, _, _, _, (source_iff N w src w').1 hs, h1, h2, (g1 t).1 ht,
            (given_eq g3).2 rfl, (given_eq g2).2 rfl, (given_eq g4).2 rfl, rfl⟩
  · rintro ⟨src, w', cs, t, pb, sa, op, h1, h2, h3, h4, h5, h6, h7, rfl⟩
    have hl := copyLoop_of_clauses h2 (w'.length + 1) {} (by omega) h3 (fresh cs)
    obtain ⟨g1, g2, g3, g4⟩ := given_foldl cs {} h3 (fresh cs)
    simp only [reduceCtorEq, false_or] at g1 g2 g3 g4
    have e1 := (g1 t).2 h4
    have e5 := (given_eq g3).1 h5
    have e6 := (given_eq g2).1 h6
    have e7 := (given_eq g4).1 h7
    simp only [parseCopy, (source_iff N w src w').2 h1, hl, e1, e5, e6, e7]

theorem createRest_iff (N : Native) (o : Bool) (w : List Tok) (s : Stmt) (r : List Tok) :
    parseCreateRest N o w = some (s, r) ↔
      (∃ v n body, w = .kw .function :: v ∧ Took N.objectName v n (.kw .as :: .str body :: r) ∧
        s = .createFunction o n body) ∨
      (∃ v x, w = .kw .external :: v ∧ Took N.externalTable v x r ∧ s = .createExternal false x) ∨
      (∃ v x, w = .kw .unbounded :: .kw .external :: v ∧ Took N.externalTable v x r ∧
        s = .createExternal true x) ∨
      (∃ x, (∀ v, w ≠ .kw .function :: v) ∧ (∀ v, w ≠ .kw .external :: v) ∧
        (∀ v, w ≠ .kw .unbounded :: v) ∧ Took N.create w x r ∧ s = .nativeCreate x) := by
  constructor
  · intro h
    unfold parseCreateRest at h
    split at h
    · rename_i v
      rw [Option.map_eq_some_iff] at h
      obtain ⟨⟨x, r'⟩, h1, h2⟩ := h
      simp only [Prod.mk.injEq] at h2
      obtain ⟨rfl, rfl⟩ := h2
      exact .inr (.inl ⟨v, x, rfl, took_iff.1 h1, rfl⟩)
    · rename_i v
      rw [Option.map_eq_some_iff] at h
      obtain ⟨⟨x, r'⟩, h1, h2⟩ := h
      simp only [Prod.mk.injEq] at h2
      obtain ⟨rfl, rfl⟩ := h2
      exact .inr (.inr (.inl ⟨v, x, rfl, took_iff.1 h1, rfl⟩))
    · simp at h
    · rename_i v
      unfold parseCreateFunction at h
      split at h
      · rename_i n body r' hr
        simp only [Option.some.injEq, Prod.mk.injEq] at h
        obtain ⟨rfl, rfl⟩ := h
        exact .inl ⟨v, n, body, rfl, took_iff.1 hr, rfl⟩
      · simp at h
    · rename_i a b c d
      rw [Option.map_eq_some_iff] at h
      obtain ⟨⟨x, r'⟩, h1, h2⟩ := h
      simp only [Prod.mk.injEq] at h2
      obtain ⟨rfl, rfl⟩ := h2
      exact .inr (.inr (.inr ⟨x, fun v e => d v e, fun v e => a v e, fun v e => c v e, took_iff.1 h1, rfl⟩))
  · rintro (⟨v, n, body, rfl, h, rfl⟩ | ⟨v, x, rfl, h, rfl⟩ | ⟨v, x, rfl, h, rfl⟩ | ⟨x, h1, h2, h3, h, rfl⟩)
    · simp [parseCreateRest, parseCreateFunction, took_iff.2 h]
    · simp [parseCreateRest, took_iff.2 h]
    · simp [parseCreateRest, took_iff.2 h]
    · unfold parseCreateRest
      split
      · exact absurd rfl (h2 _)
      · exact absurd rfl (h3 _)
      · exact absurd rfl (h3 _)
      · exact absurd rfl (h1 _)
      · rw [took_iff.2 h]; rfl

/-- **C81.** What is read at the front of a token sequence is exactly what the grammar derives: the
statement, its meaning and where it ends. -/
theorem C81_grammar (N : Native) (w : List Tok) (s : Stmt) (r : List Tok) :
    parseStatement N w = some (s, r) ↔ Stm N w s r := by
  constructor
  · intro h
    unfold parseStatement at h
    split at h
    · rename_i w
      unfold parseCreate at h
      have key : ∀ o v, (o = false → ∀ w', v ≠ .kw .or :: .kw .replace :: w') →
          parseCreateRest N o v = some (s, r) → Stm N (.kw .create :: (orRep o ++ v)) s r := by
        intro o v ho h
        rcases (createRest_iff N o v s r).1 h with ⟨v, n, body, rfl, h', rfl⟩ | ⟨v, x, rfl, h', rfl⟩ |
          ⟨v, x, rfl, h', rfl⟩ | ⟨x, h1, h2, h3, h', rfl⟩
        · exact .function o v n body r h'
        · exact .external o v x r h'
        · exact .unbounded o v x r h'
        · exact .create o v x r h' h1 h2 h3 ho
      split at h
      · rename_i v
        exact key true v (by simp) h
      · rename_i hne
        exact key false _ (fun _ w' e => hne w' e) h
    · unfold parseConvert at h
      split at h
      · rename_i loc v
        rw [Option.map_eq_some_iff] at h
        obtain ⟨⟨x, r'⟩, h1, h2⟩ := h
        simp only [Prod.mk.injEq] at h2
        obtain ⟨rfl, rfl⟩ := h2
        exact .convert loc v x r' (took_iff.1 h1)
      · simp at h
    · rename_i w
      obtain ⟨src, w', cs, t, pb, sa, op, h1, h2, h3, h4, h5, h6, h7, rfl⟩ := (copy_iff N w s r).1 h
      exact .copy w src w' cs r t pb sa op h1 h2 h3 h4 h5 h6 h7
    · unfold parseVacuum at h
      split at h
      · rename_i v
        rw [Option.map_eq_some_iff] at h
        obtain ⟨⟨x, r'⟩, h1, h2⟩ := h
        simp only [Prod.mk.injEq] at h2
        obtain ⟨rfl, rfl⟩ := h2
        exact .vacuumTable v x r' (took_iff.1 h1)
      · rename_i v
        split at h
        · rename_i d ns r' hr
          simp only [Option.some.injEq, Prod.mk.injEq] at h
          obtain ⟨rfl, rfl⟩ := h
          exact .vacuumDb v d ns r' (took_iff.1 hr)
        · simp at h
      · simp at h
    · unfold parseTruncate at h
      split at h
      · rename_i v
        rw [Option.map_eq_some_iff] at h
        obtain ⟨⟨x, r'⟩, h1, h2⟩ := h
        simp only [Prod.mk.injEq] at h2
        obtain ⟨rfl, rfl⟩ := h2
        exact .truncate v x r' (took_iff.1 h1)
      · simp at h
    · rename_i n1 n2 n3 n4 n5
      rw [Option.map_eq_some_iff] at h
      obtain ⟨⟨x, r'⟩, h1, h2⟩ := h
      simp only [Prod.mk.injEq] at h2
      obtain ⟨rfl, rfl⟩ := h2
      exact .native w x r' (took_iff.1 h1) (fun v e => n5 v e) (fun v e => n4 v e) (fun v e => n2 v e)
        (fun v e => n3 v e) (fun v e => n1 v e)
  · intro h
    have key : ∀ o v, (o = false → ∀ w', v ≠ .kw .or :: .kw .replace :: w') →
        parseStatement N (.kw .create :: (orRep o ++ v)) = parseCreateRest N o v := by
      intro o v ho
      cases o with
      | true => simp [parseStatement, parseCreate, orRep]
      | false =>
        simp only [parseStatement, orRep, List.nil_append]
        unfold parseCreate
        split
        · exact absurd rfl (ho rfl _)
        · rfl
    cases h with
    | truncate w n r h => simp [parseStatement, parseTruncate, took_iff.2 h]
    | vacuumTable w n r h => simp [parseStatement, parseVacuum, took_iff.2 h]
    | vacuumDb w d ns r h => simp [parseStatement, parseVacuum, took_iff.2 h]
    | convert loc w n r h => simp [parseStatement, parseConvert, took_iff.2 h]
    | copy w src w' cs r t pb sa op h1 h2 h3 h4 h5 h6 h7 =>
      simp only [parseStatement]
      exact (copy_iff N w _ r).2 ⟨src, w', cs, t, pb, sa, op, h1, h2, h3, h4, h5, h6, h7, rfl⟩
    | function o w n body r h =>
      rw [key o _ (by simp)]
      exact (createRest_iff ..).2 (.inl ⟨w, n, body, rfl, h, rfl⟩)
    | external o w x r h =>
      rw [key o _ (by simp)]
      exact (createRest_iff ..).2 (.inr (.inl ⟨w, x, rfl, h, rfl⟩))
    | unbounded o w x r h =>
      rw [key o _ (by simp)]
      exact (createRest_iff ..).2 (.inr (.inr (.inl ⟨w, x, rfl, h, rfl⟩)))
    | create o w x r h h1 h2 h3 h4 =>
      rw [key o _ h4]
      exact (createRest_iff ..).2 (.inr (.inr (.inr ⟨x, h1, h2, h3, h, rfl⟩)))
    | native w k r h h1 h2 h3 h4 h5 =>
      unfold parseStatement
      split
      · exact absurd rfl (h5 _)
      · exact absurd rfl (h3 _)
      · exact absurd rfl (h4 _)
      · exact absurd rfl (h2 _)
      · exact absurd rfl (h1 _)
      · rw [took_iff.2 h]; rfl

theorem C81_copy_sound (N : Native) (w w' : List Tok) (src : CopySource) (cs : List Clause) (r : List Tok)
    (hs : Source N w src w') (hc : Clauses N w' cs r) (s : Stmt) (r' : List Tok)
    (h : Stm N (.kw .copy :: w) s r') : Once cs ∧ ∃ t, .to t ∈ cs := by
  have hdet : ∀ {w cs r}, Clauses N w cs r → ∀ {cs' r'}, Clauses N w cs' r' → cs = cs' := by
    intro w cs r h
    have tk : ∀ {p : List Tok → Option (Nat × Nat)} {w a b r r'}, Took p w a r → Took p w b r' → a = b ∧ r = r' := by
      rintro p w a b r r' ⟨-, k, h1, rfl⟩ ⟨-, k', h2, rfl⟩
      rw [h1] at h2
      simp only [Option.some.injEq, Prod.mk.injEq] at h2
      exact ⟨h2.1, by rw [h2.2]⟩
    induction h with
    | eof => intro _ _ h'; cases h'; rfl
    | semi => intro _ _ h'; cases h'; rfl
    | to s w cs r _ ih => intro _ _ h'; cases h' with | to _ _ _ _ h => rw [ih h]
    | stored w w' x cs r ht _ ih =>
      intro _ _ h'
      cases h' with
      | stored _ _ _ _ _ ht' h =>
        obtain ⟨rfl, rfl⟩ := tk ht ht'
        rw [ih h]
    | parts w w' x cs r ht _ ih =>
      intro _ _ h'
      cases h' with
      | parts _ _ _ _ _ ht' h =>
        obtain ⟨rfl, rfl⟩ := tk ht ht'
        rw [ih h]
    | opts w w' x cs r ht _ ih =>
      intro _ _ h'
      cases h' with
      | opts _ _ _ _ _ ht' h =>
        obtain ⟨rfl, rfl⟩ := tk ht ht'
        rw [ih h]
  cases h with
  | copy _ src2 w2 cs2 _ t pb sa op h1 h2 h3 h4 h5 h6 h7 =>
    have e1 := (source_iff N w src w').2 hs
    have e2 := (source_iff N w src2 w2).2 h1
    rw [e1] at e2
    simp only [Option.some.injEq, Prod.mk.injEq] at e2
    obtain ⟨rfl, rfl⟩ := e2
    rw [hdet hc h2]
    exact ⟨h3, t, h4⟩
  | native _ _ _ _ _ _ _ h => exact absurd rfl (h _)

/-- **C81**, COPY: clauses in any order are accepted exactly if none is repeated and `TO` is among them. -/
theorem C81_copy (N : Native) (w w' : List Tok) (src : CopySource) (cs : List Clause) (r : List Tok)
    (hs : Source N w src w') (hc : Clauses N w' cs r) :
    (∃ s r', parseStatement N (.kw .copy :: w) = some (s, r')) ↔ Once cs ∧ ∃ t, .to t ∈ cs := by
  constructor
  · rintro ⟨s, r', h⟩
    rw [C81_grammar] at h
    exact C81_copy_sound N w w' src cs r hs hc s r' h
  · rintro ⟨h1, t, h2⟩
    have gv : ∀ mk : Nat → Clause, ∃ g, Given mk cs g := by
      intro mk
      by_cases h : ∃ x, mk x ∈ cs
      · obtain ⟨x, hx⟩ := h
        exact ⟨some x, hx⟩
      · exact ⟨none, fun x hx => h ⟨x, hx⟩⟩
    obtain ⟨pb, g1⟩ := gv .parts
    obtain ⟨sa, g2⟩ := gv .stored
    obtain ⟨op, g3⟩ := gv .opts
    exact ⟨_, _, (C81_grammar ..).2 (.copy w src w' cs r t pb sa op hs hc h1 h2 g1 g2 g3)⟩

/-- `demoN` with one-token clauses. -/
def demoC : Native :=
  { demoN with
    fileFormat := fun toks => match toks with
      | .other n :: _ => some (n, 0)
      | _ => none
    partitions := fun toks => match toks with
      | .other n :: _ => some (n, 0)
      | _ => none }

/-- `COPY t STORED AS 5 TO 'x' PARTITIONED BY 6;`, in both orders; with `TO` twice or without it. -/
example : parseStatement demoC [.kw .copy, .ident "t", .kw .stored, .kw .as, .other 5, .kw .to, .str "x",
      .kw .partitioned, .kw .by, .other 6, .semi] =
      some (.copyTo (.relation ["t"]) "x" (some 6) (some 5) none, []) ∧
    parseStatement demoC [.kw .copy, .ident "t", .kw .partitioned, .kw .by, .other 6, .kw .to, .str "x",
      .kw .stored, .kw .as, .other 5] =
      some (.copyTo (.relation ["t"]) "x" (some 6) (some 5) none, []) ∧
    parseStatement demoC [.kw .copy, .ident "t", .kw .to, .str "x", .kw .to, .str "x"] = none ∧
    parseStatement demoC [.kw .copy, .ident "t", .kw .stored, .kw .as, .other 5] = none := by
  decide +kernel

/-- The grammar derives the first of them. -/
example : Stm demoC [.kw .copy, .ident "t", .kw .stored, .kw .as, .other 5, .kw .to, .str "x",
      .kw .partitioned, .kw .by, .other 6, .semi]
      (.copyTo (.relation ["t"]) "x" (some 6) (some 5) none) [] :=
  (C81_grammar ..).1 (by decide +kernel)

end Seafowl.Sql
