/-
C46: a script is split into its statements.  C47 (first half): TRUNCATE and VACUUM are not confused.
C66: OR REPLACE.
-/
import Verif.Sql.Parser

set_option linter.unusedSimpArgs false

namespace Seafowl.Sql

/-! ### Specification -/

/-- A statement of a script: its tokens, what it means, and the number of semicolons after it. -/
structure Piece where
  text : List Tok
  stmt : Stmt
  semis : Nat

/-- The script: `lead` semicolons, then the statements, each followed by its semicolons. -/
def script (lead : Nat) (ps : List Piece) : List Tok :=
  List.replicate lead .semi ++ ps.flatMap fun p => p.text ++ List.replicate p.semis .semi

/-- The tokens of a script from which a statement is to be read are followed by nothing or by a
semicolon. -/
def Ends (rest : List Tok) : Prop := rest = [] ∨ rest.head? = some .semi

/-- `w` is a statement with meaning `s`: read from it, up to where it ends. -/
def IsStmt (N : Native) (w : List Tok) (s : Stmt) : Prop :=
  (∃ t, w.head? = some t ∧ t ≠ .semi) ∧
  ∀ rest, Ends rest → parseStatement N (w ++ rest) = some (s, rest)

/-- Every statement but the last is followed by a semicolon. -/
def Separated : List Piece → Prop
  | [] => True
  | [_] => True
  | p :: q :: ps => 0 < p.semis ∧ Separated (q :: ps)

/-! ### Splitting -/

theorem script_cons (lead : Nat) (p : Piece) (ps : List Piece) :
    script lead (p :: ps) = List.replicate lead .semi ++ (p.text ++ script p.semis ps) := by
  simp [script, List.append_assoc]

theorem script_succ (lead : Nat) (ps : List Piece) :
    script (lead + 1) ps = .semi :: script lead ps := by
  simp [script, List.replicate_succ]

theorem length_script (lead : Nat) (ps : List Piece) :
    (script lead ps).length = lead + (ps.flatMap fun p => p.text ++ List.replicate p.semis Tok.semi).length := by
  simp [script]

theorem ends_script (k : Nat) (ps : List Piece) (h : 0 < k ∨ ps = []) : Ends (script k ps) := by
  cases k with
  | zero =>
    rcases h with h | h
    · omega
    · subst h; left; simp [script]
  | succ k => right; rw [script_succ]; rfl

theorem parseLoop_script (N : Native) : ∀ (f lead : Nat) (ps : List Piece) (exp : Bool),
    (∀ p ∈ ps, IsStmt N p.text p.stmt) → Separated ps → (exp = true → 0 < lead ∨ ps = []) →
    (script lead ps).length < f →
    parseLoop N f exp (script lead ps) = some (ps.map (·.stmt)) := by
  intro f
  induction f with
  | zero => intro _ _ _ _ _ _ h; omega
  | succ f ih =>
    intro lead ps exp hw hs he hl
    cases lead with
    | succ k =>
      rw [script_succ] at hl ⊢
      simp only [parseLoop]
      simp only [List.length_cons] at hl
      exact ih k ps false hw hs (by simp) (by omega)
    | zero =>
      cases ps with
      | nil => simp [script, parseLoop]
      | cons p ps =>
        have hexp : exp = false := by
          cases exp with
          | false => rfl
          | true => have := he rfl; simp at this
        subst hexp
        obtain ⟨⟨t, ht, htne⟩, hp⟩ := hw p (by simp)
        have hend : Ends (script p.semis ps) := by
          apply ends_script
          cases ps with
          | nil => exact Or.inr rfl
          | cons q ps => exact Or.inl hs.1
        have hparse := hp (script p.semis ps) hend
        have hsc : script 0 (p :: ps) = p.text ++ script p.semis ps := by
          rw [script_cons]; simp
        rw [hsc] at hl ⊢
        have hlen : 0 < p.text.length := by
          cases htx : p.text with
          | nil => rw [htx] at ht; simp at ht
          | cons _ _ => simp
        rw [List.length_append] at hl
        have hih := ih p.semis ps true (fun q hq => hw q (by simp [hq]))
          (by cases ps with
              | nil => trivial
              | cons q ps => exact hs.2)
          (fun _ => by
            cases ps with
            | nil => exact Or.inr rfl
            | cons q ps => exact Or.inl hs.1)
          (by omega)
        cases htx : p.text with
        | nil => rw [htx] at ht; simp at ht
        | cons t' w =>
          rw [htx] at ht hparse
          simp only [List.head?_cons, Option.some.injEq] at ht
          subst ht
          simp only [List.cons_append] at hparse ⊢
          cases t' with
          | semi => exact absurd rfl htne
          | _ =>
            simp only [parseLoop, Bool.false_eq_true, if_false, hparse, hih, Option.map_some,
              List.map_cons]

/-- **C46 (splitting).** A script of statements, each but the last followed by at least one
semicolon, with any number of empty statements around them, is read as exactly these statements, in
order.  Partial: a COPY is such a statement only in last position
(`C46_violated_copy`, `C46_copy_partial`). -/
theorem C46_split_partial (N : Native) (lead : Nat) (ps : List Piece)
    (hw : ∀ p ∈ ps, IsStmt N p.text p.stmt) (hs : Separated ps) :
    parseSql N (script lead ps) = some (ps.map (·.stmt)) :=
  parseLoop_script N _ lead ps false hw hs (by simp) (by omega)

/-! ### Soundness: what is read was there, in order and separated -/

theorem run_suffix {α} (p : List Tok → Option (α × Nat)) (toks : List Tok) (a : α)
    (rest : List Tok) (h : run p toks = some (a, rest)) :
    ∃ pre, pre ≠ [] ∧ toks = pre ++ rest := by
  unfold run at h
  cases toks with
  | nil => simp at h
  | cons t ts =>
    simp only [Option.map_eq_some_iff, Prod.mk.injEq] at h
    obtain ⟨⟨a', n⟩, _, _, rfl⟩ := h
    refine ⟨(t :: ts).take (n + 1), by simp, (List.take_append_drop _ _).symm⟩

theorem suffix_cons {pre rest toks : List Tok} (t : Tok) (h : toks = pre ++ rest) :
    ∃ pre, pre ≠ [] ∧ t :: toks = pre ++ rest := ⟨t :: pre, by simp, by simp [h]⟩

/-- `rest` is what remains of `toks` after some tokens. -/
def Suffix (toks rest : List Tok) : Prop := ∃ pre, toks = pre ++ rest

theorem Suffix.trans {a b c : List Tok} (h1 : Suffix a b) (h2 : Suffix b c) : Suffix a c := by
  obtain ⟨p, rfl⟩ := h1
  obtain ⟨q, rfl⟩ := h2
  exact ⟨p ++ q, by simp⟩

theorem Suffix.cons {a b : List Tok} (t : Tok) (h : Suffix a b) : Suffix (t :: a) b := by
  obtain ⟨p, rfl⟩ := h; exact ⟨t :: p, rfl⟩

theorem Suffix.refl (a : List Tok) : Suffix a a := ⟨[], rfl⟩

theorem run_Suffix {α} {p : List Tok → Option (α × Nat)} {toks : List Tok} {a : α}
    {rest : List Tok} (h : run p toks = some (a, rest)) : Suffix toks rest := by
  obtain ⟨pre, _, h⟩ := run_suffix p toks a rest h; exact ⟨pre, h⟩

theorem runMap_Suffix {α β} {p : List Tok → Option (α × Nat)} {toks : List Tok} (g : α → β)
    {b : β} {rest : List Tok}
    (h : ((run p toks).map fun r => (g r.1, r.2)) = some (b, rest)) : Suffix toks rest := by
  rw [Option.map_eq_some_iff] at h
  obtain ⟨⟨a, r⟩, h1, h2⟩ := h
  simp only [Prod.mk.injEq] at h2
  obtain ⟨-, rfl⟩ := h2
  exact run_Suffix h1

theorem copyLoop_Suffix (N : Native) : ∀ (f : Nat) (b : CopyB) (toks : List Tok) (b' : CopyB)
    (rest : List Tok), copyLoop N f b toks = some (b', rest) → Suffix toks rest := by
  intro f
  induction f with
  | zero => intro b toks b' rest h; simp [copyLoop] at h
  | succ f ih =>
    intro b toks b' rest h
    unfold copyLoop at h
    split at h
    · split at h
      · simp at h
      · split at h
        · simp at h
        · rename_i hr
          exact ((run_Suffix hr).trans (ih _ _ _ _ h)).cons _ |>.cons _
    · split at h
      · simp at h
      · exact ((ih _ _ _ _ h).cons _).cons _
    · split at h
      · simp at h
      · split at h
        · simp at h
        · rename_i hr
          exact ((run_Suffix hr).trans (ih _ _ _ _ h)).cons _ |>.cons _
    · split at h
      · simp at h
      · split at h
        · simp at h
        · rename_i hr
          exact ((run_Suffix hr).trans (ih _ _ _ _ h)).cons _
    · simp only [Option.some.injEq, Prod.mk.injEq] at h
      rw [← h.2]; exact Suffix.refl _
    · simp only [Option.some.injEq, Prod.mk.injEq] at h
      rw [← h.2]; exact (Suffix.refl _).cons _
    · simp at h

theorem parseCreateRest_Suffix (N : Native) (o : Bool) (toks : List Tok) (s : Stmt)
    (rest : List Tok) (h : parseCreateRest N o toks = some (s, rest)) : Suffix toks rest := by
  unfold parseCreateRest at h
  split at h
  · exact (runMap_Suffix (fun x => Stmt.createExternal false x) h).cons _
  · exact ((runMap_Suffix (fun x => Stmt.createExternal true x) h).cons _).cons _
  · simp at h
  · unfold parseCreateFunction at h
    split at h
    · rename_i hr
      simp only [Option.some.injEq, Prod.mk.injEq] at h
      rw [← h.2]
      exact ((run_Suffix hr).trans (((Suffix.refl _).cons _).cons _)).cons _
    · simp at h
  · exact runMap_Suffix (fun x => Stmt.nativeCreate x) h

theorem parseStatement_suffix (N : Native) (t : Tok) (ts : List Tok) (s : Stmt) (rest : List Tok)
    (h : parseStatement N (t :: ts) = some (s, rest)) :
    ∃ pre, pre ≠ [] ∧ t :: ts = pre ++ rest := by
  unfold parseStatement at h
  split at h
  all_goals try rename_i heq
  · injection heq with h1 h2; subst h1; subst h2
    refine (fun (hs : Suffix ts rest) => suffix_cons _ hs.choose_spec) ?_
    unfold parseCreate at h
    split at h
    · exact ((parseCreateRest_Suffix N _ _ _ _ h).cons _).cons _
    · exact parseCreateRest_Suffix N _ _ _ _ h
  · injection heq with h1 h2; subst h1; subst h2
    refine (fun (hs : Suffix ts rest) => suffix_cons _ hs.choose_spec) ?_
    unfold parseConvert at h
    split at h
    · rename_i loc _
      exact (((runMap_Suffix (fun x => Stmt.convert loc x) h).cons _).cons _).cons _
    · simp at h
  · injection heq with h1 h2; subst h1; subst h2
    refine (fun (hs : Suffix ts rest) => suffix_cons _ hs.choose_spec) ?_
    unfold parseCopy at h
    cases hc : copySource N ts with
    | none => rw [hc] at h; simp at h
    | some r =>
      obtain ⟨src, r1⟩ := r
      rw [hc] at h
      simp only at h
      have hsrc : Suffix ts r1 := by
        unfold copySource at hc
        split at hc
        · split at hc
          · rename_i hr
            simp only [Option.some.injEq, Prod.mk.injEq] at hc
            rw [← hc.2]
            exact ((run_Suffix hr).trans ((Suffix.refl _).cons _)).cons _
          · simp at hc
        · exact runMap_Suffix (fun x => CopySource.relation x) hc
      cases hl : copyLoop N (r1.length + 1) {} r1 with
      | none => rw [hl] at h; simp at h
      | some r =>
        obtain ⟨b, r2⟩ := r
        rw [hl] at h
        simp only at h
        split at h
        · simp at h
        · simp only [Option.some.injEq, Prod.mk.injEq] at h
          rw [← h.2]
          exact hsrc.trans (copyLoop_Suffix N _ _ _ _ _ hl)
  · injection heq with h1 h2; subst h1; subst h2
    refine (fun (hs : Suffix ts rest) => suffix_cons _ hs.choose_spec) ?_
    unfold parseVacuum at h
    split at h
    · exact (runMap_Suffix (fun x => Stmt.truncate x none false) h).cons _
    · split at h
      · rename_i hr
        simp only [Option.some.injEq, Prod.mk.injEq] at h
        rw [← h.2]
        exact (run_Suffix hr).cons _
      · simp at h
    · simp at h
  · injection heq with h1 h2; subst h1; subst h2
    refine (fun (hs : Suffix ts rest) => suffix_cons _ hs.choose_spec) ?_
    unfold parseTruncate at h
    split at h
    · exact (runMap_Suffix (fun x => Stmt.truncate x none true) h).cons _
    · simp at h
  · rw [Option.map_eq_some_iff] at h
    obtain ⟨⟨a, r⟩, h1, h2⟩ := h
    simp only [Prod.mk.injEq] at h2
    obtain ⟨-, rfl⟩ := h2
    exact run_suffix _ _ _ _ h1

/-- The pieces are what was read: each statement was parsed from its text and what follows. -/
def ReadAs (N : Native) : List Piece → Prop
  | [] => True
  | p :: ps => p.text ≠ [] ∧
      parseStatement N (p.text ++ script p.semis ps) = some (p.stmt, script p.semis ps) ∧
      ReadAs N ps

theorem script_zero_append (k : Nat) (ps : List Piece) :
    .semi :: script k ps = script (k + 1) ps := (script_succ k ps).symm

theorem parseLoop_sound (N : Native) : ∀ (f : Nat) (exp : Bool) (toks : List Tok)
    (stmts : List Stmt), parseLoop N f exp toks = some stmts →
    ∃ lead ps, toks = script lead ps ∧ stmts = ps.map (·.stmt) ∧ ReadAs N ps ∧ Separated ps ∧
      (exp = true → 0 < lead ∨ ps = []) := by
  intro f
  induction f with
  | zero => intro exp toks stmts h; simp [parseLoop] at h
  | succ f ih =>
    intro exp toks stmts h
    unfold parseLoop at h
    split at h
    · obtain ⟨lead, ps, h1, h2, h3, h4, -⟩ := ih _ _ _ h
      exact ⟨lead + 1, ps, by rw [h1, script_succ], h2, h3, h4, fun _ => Or.inl (by omega)⟩
    · injection h with h
      exact ⟨0, [], by simp [script], by simp [← h], trivial, trivial, fun _ => Or.inr rfl⟩
    · rename_i t rest _
      cases exp with
      | true => simp at h
      | false =>
        simp only [Bool.false_eq_true, if_false] at h
        cases hp : parseStatement N (t :: rest) with
        | none => rw [hp] at h; simp at h
        | some r =>
          obtain ⟨s, rest'⟩ := r
          rw [hp] at h
          simp only [Option.map_eq_some_iff] at h
          obtain ⟨ss, h1, rfl⟩ := h
          obtain ⟨lead, ps, h2, h3, h4, h5, h6⟩ := ih _ _ _ h1
          obtain ⟨pre, hne, heq⟩ := parseStatement_suffix N t rest s rest' hp
          refine ⟨0, ⟨pre, s, lead⟩ :: ps, ?_, ?_, ?_, ?_, by simp⟩
          · rw [heq, h2, script_cons]; simp
          · simp [h3]
          · refine ⟨hne, ?_, h4⟩
            simp only
            rw [← h2, ← heq]
            exact hp
          · cases ps with
            | nil => trivial
            | cons q ps =>
              refine ⟨?_, h5⟩
              rcases h6 rfl with h | h
              · exact h
              · simp at h

/-- **C46 (soundness).** Whatever script is accepted: the statements executed are those read from
the script, in order, without gaps other than semicolons, and two statements are never read without
a semicolon between them. -/
theorem C46_sound (N : Native) (toks : List Tok) (stmts : List Stmt)
    (h : parseSql N toks = some stmts) :
    ∃ lead ps, toks = script lead ps ∧ stmts = ps.map (·.stmt) ∧ ReadAs N ps ∧ Separated ps := by
  obtain ⟨lead, ps, h1, h2, h3, h4, -⟩ := parseLoop_sound N _ _ _ _ h
  exact ⟨lead, ps, h1, h2, h3, h4⟩

/-- A script of semicolons only, or an empty one, is the empty list of statements. -/
theorem C46_empty (N : Native) (n : Nat) : parseSql N (List.replicate n .semi) = some [] := by
  have := C46_split_partial N n [] (by simp) trivial
  simpa [script] using this

/-- If the statements after some that are read are not accepted, the whole script is not. -/
theorem parseLoop_prefix (N : Native) (t : Tok) (bad : List Tok)
    (hbad : ∀ f, parseLoop N f false (t :: bad) = none) : ∀ (f lead : Nat) (ps : List Piece) (exp : Bool),
      (∀ p ∈ ps, IsStmt N p.text p.stmt) → (∀ p ∈ ps, 0 < p.semis) →
      (exp = true → 0 < lead) →
      parseLoop N f exp (script lead ps ++ t :: bad) = none := by
  intro f
  induction f with
  | zero => intros; rfl
  | succ f ih =>
    intro lead ps exp hw hs he
    cases lead with
    | succ k =>
      rw [script_succ]
      simp only [List.cons_append, parseLoop]
      exact ih k ps false hw hs (by simp)
    | zero =>
      have hexp : exp = false := by
        cases exp with
        | false => rfl
        | true => have := he rfl; omega
      subst hexp
      cases ps with
      | nil =>
        have : script 0 [] ++ t :: bad = t :: bad := by simp [script]
        rw [this]
        exact hbad _
      | cons p ps =>
        obtain ⟨⟨u, hu, hune⟩, hp⟩ := hw p (by simp)
        have hk := hs p (by simp)
        have hparse := hp (script p.semis ps ++ t :: bad) (by
          right
          obtain ⟨k, hk⟩ : ∃ k, p.semis = k + 1 := ⟨p.semis - 1, by omega⟩
          rw [hk, script_succ]; rfl)
        have hsc : script 0 (p :: ps) ++ t :: bad = p.text ++ (script p.semis ps ++ t :: bad) := by
          rw [script_cons]; simp
        rw [hsc]
        have hih := ih p.semis ps true (fun q hq => hw q (by simp [hq]))
          (fun q hq => hs q (by simp [hq])) (fun _ => hk)
        cases htx : p.text with
        | nil => rw [htx] at hu; simp at hu
        | cons u' w =>
          rw [htx] at hu hparse
          simp only [List.head?_cons, Option.some.injEq] at hu
          subst hu
          simp only [List.cons_append] at hparse ⊢
          cases u' with
          | semi => exact absurd rfl hune
          | _ =>
            simp only [parseLoop, Bool.false_eq_true, if_false, hparse, hih, Option.map_none]

/-- **C46 (a failing statement).** If, after statements that are read, one is not, the whole script
is rejected: none of its statements is executed. -/
theorem C46_error (N : Native) (lead : Nat) (ps : List Piece)
    (hw : ∀ p ∈ ps, IsStmt N p.text p.stmt) (hs : ∀ p ∈ ps, 0 < p.semis)
    (t : Tok) (bad : List Tok) (ht : t ≠ .semi) (hbad : parseStatement N (t :: bad) = none) :
    parseSql N (script lead ps ++ t :: bad) = none := by
  refine parseLoop_prefix N t bad (fun f => ?_) _ lead ps false hw hs (by simp)
  cases f with
  | zero => rfl
  | succ f =>
    cases t with
    | semi => exact absurd rfl ht
    | _ => simp only [parseLoop, Bool.false_eq_true, if_false, hbad]

/-! ### The statements Seafowl parses itself -/

/-- A parser of the crate reads `w` as `a`, whatever follows a statement. -/
def Reads (p : List Tok → Option (α × Nat)) (w : List Tok) (a : α) : Prop :=
  w ≠ [] ∧ ∀ rest, Ends rest → p (w ++ rest) = some (a, w.length - 1)

theorem Reads.run {p : List Tok → Option (α × Nat)} {w : List Tok} {a : α} (h : Reads p w a)
    (rest : List Tok) (hr : Ends rest) : run p (w ++ rest) = some (a, rest) := by
  obtain ⟨hne, h⟩ := h
  cases w with
  | nil => exact absurd rfl hne
  | cons t w =>
    have := h rest hr
    simp only [List.cons_append, List.length_cons, Nat.add_sub_cancel] at this
    simp only [List.cons_append, Sql.run, this, Option.map_some, List.drop_succ_cons]
    simp

/-- Statements the crate parses, TRUNCATE, VACUUM and CONVERT are statements of a script in the
sense of `C46_split_partial`. -/
theorem C46_statements (N : Native) (w : List Tok) (n : Name) (k : Nat) (loc d : String)
    (ns : Name) :
    (Reads N.objectName w n →
      IsStmt N (.kw .truncate :: .kw .table :: w) (.truncate n none true)) ∧
    (Reads N.objectName w n →
      IsStmt N (.kw .vacuum :: .kw .table :: w) (.truncate n none false)) ∧
    (Reads N.objectName w (d :: ns) →
      IsStmt N (.kw .vacuum :: .kw .database :: w) (.truncate [] (some d) false)) ∧
    (Reads N.objectName w n →
      IsStmt N (.kw .convert :: .str loc :: .kw .to :: .kw .delta :: w) (.convert loc n)) ∧
    (Reads N.statement w k → (∃ t, w.head? = some t ∧ t ≠ .semi ∧ t ≠ .kw .create ∧
        t ≠ .kw .convert ∧ t ≠ .kw .copy ∧ t ≠ .kw .vacuum ∧ t ≠ .kw .truncate) →
      IsStmt N w (.native k)) := by
  refine ⟨?_, ?_, ?_, ?_, ?_⟩
  · intro h
    refine ⟨⟨_, rfl, by simp⟩, fun rest hr => ?_⟩
    simp [parseStatement, parseTruncate, h.run rest hr]
  · intro h
    refine ⟨⟨_, rfl, by simp⟩, fun rest hr => ?_⟩
    simp [parseStatement, parseVacuum, h.run rest hr]
  · intro h
    refine ⟨⟨_, rfl, by simp⟩, fun rest hr => ?_⟩
    simp [parseStatement, parseVacuum, h.run rest hr]
  · intro h
    refine ⟨⟨_, rfl, by simp⟩, fun rest hr => ?_⟩
    simp [parseStatement, parseConvert, h.run rest hr]
  · rintro h ⟨t, ht, h0, h1, h2, h3, h4, h5⟩
    refine ⟨⟨t, ht, h0⟩, fun rest hr => ?_⟩
    have hrun := h.run rest hr
    cases w with
    | nil => simp at ht
    | cons t' w =>
      simp only [List.head?_cons, Option.some.injEq] at ht
      subst ht
      simp only [List.cons_append] at hrun ⊢
      unfold parseStatement
      split
      · rename_i heq; injection heq with he; exact absurd he h1
      · rename_i heq; injection heq with he; exact absurd he h2
      · rename_i heq; injection heq with he; exact absurd he h3
      · rename_i heq; injection heq with he; exact absurd he h4
      · rename_i heq; injection heq with he; exact absurd he h5
      · rw [hrun]; rfl

/-! ### COPY -/

/-- A concrete crate: names are single identifiers, statements single tokens `other n`. -/
def demoN : Native where
  statement := fun toks => match toks with
    | .other n :: _ => some (n, 0)
    | _ => none
  create := fun toks => match toks with
    | .other n :: _ => some (n, 0)
    | _ => none
  query := fun toks => match toks with
    | .other n :: _ => some (n, 0)
    | _ => none
  objectName := fun toks => match toks with
    | .ident s :: _ => some ([s], 0)
    | _ => none
  fileFormat := fun _ => none
  partitions := fun _ => none
  options := fun _ => none
  externalTable := fun _ => none

/-- `COPY t TO 'x'` -/
def demoCopy : List Tok := [.kw .copy, .ident "t", .kw .to, .str "x"]

/-- **C46 violated (COPY).** `COPY t TO 'x'; SELECT 1` is rejected, although each of the two
statements is accepted on its own: COPY consumes the semicolon that separates it. -/
theorem C46_violated_copy :
    parseSql demoN (demoCopy ++ [.semi, .other 1]) = none ∧
    parseSql demoN demoCopy = some [.copyTo (.relation ["t"]) "x" none none none] ∧
    parseSql demoN [.other 1] = some [.native 1] := by
  refine ⟨by decide +kernel, by decide +kernel, by decide +kernel⟩

/-- What COPY consumes: its clauses and one semicolon, if there is one. -/
theorem copyLoop_ends (N : Native) : ∀ (f : Nat) (b : CopyB) (w : List Tok) (b' : CopyB),
    copyLoop N f b w = some (b', []) → (∀ t ∈ w, t ≠ Tok.semi) →
    (∀ (p : List Tok → Option (Nat × Nat)), (p = N.fileFormat ∨ p = N.partitions ∨ p = N.options) →
      ∀ w x, p w = some x → ∀ rest, Ends rest → p (w ++ rest) = some x ∧ x.2 < w.length) →
    ∀ rest, copyLoop N (f + rest.length + 1) b (w ++ .semi :: rest) = some (b', rest) := by
  intro f
  induction f with
  | zero => intro b w b' h; simp [copyLoop] at h
  | succ f ih =>
    intro b w b' h hsemi hloc rest
    have hrun : ∀ (p : List Tok → Option (Nat × Nat)),
        (p = N.fileFormat ∨ p = N.partitions ∨ p = N.options) → ∀ w x r, run p w = some (x, r) →
        run p (w ++ .semi :: rest) = some (x, r ++ .semi :: rest) := by
      intro p hp w x r hr
      cases w with
      | nil => simp [run] at hr
      | cons t w =>
        simp only [run, Option.map_eq_some_iff, Prod.mk.injEq] at hr
        obtain ⟨⟨x', n⟩, h1, h2, h3⟩ := hr
        simp only at h2 h3
        subst h2
        obtain ⟨h4, h5⟩ := hloc p hp (t :: w) (x', n) h1 (.semi :: rest) (Or.inr rfl)
        simp only [List.cons_append] at h4
        simp only [List.cons_append, run, h4, Option.map_some]
        rw [← h3]
        simp only [List.drop_succ_cons, Option.some.injEq, Prod.mk.injEq, true_and]
        simp only [List.length_cons] at h5
        rw [List.drop_append_of_le_length (by omega)]
    have hcalc : f + 1 + rest.length + 1 = (f + rest.length + 1) + 1 := by omega
    rw [hcalc]
    unfold copyLoop at h
    split at h
    · rename_i toks r
      split at h
      · simp at h
      · rename_i hb
        cases hr : run N.fileFormat r with
        | none => rw [hr] at h; simp at h
        | some xr =>
          obtain ⟨x, r'⟩ := xr
          rw [hr] at h
          simp only at h
          have hsuf : ∀ t ∈ r', t ≠ Tok.semi := by
            obtain ⟨pre, hpre⟩ := run_Suffix hr
            intro t ht; apply hsemi; rw [hpre]; simp [ht]
          simp only [List.cons_append, copyLoop, hb, Bool.false_eq_true, if_false,
            hrun N.fileFormat (Or.inl rfl) r x r' hr]
          exact ih _ _ _ h hsuf hloc rest
    · rename_i toks s r
      split at h
      · simp at h
      · rename_i hb
        have hsuf : ∀ t ∈ r, t ≠ Tok.semi := by intro t ht; apply hsemi; simp [ht]
        simp only [List.cons_append, copyLoop, hb, Bool.false_eq_true, if_false]
        exact ih _ _ _ h hsuf hloc rest
    · rename_i toks r
      split at h
      · simp at h
      · rename_i hb
        cases hr : run N.partitions r with
        | none => rw [hr] at h; simp at h
        | some xr =>
          obtain ⟨x, r'⟩ := xr
          rw [hr] at h
          simp only at h
          have hsuf : ∀ t ∈ r', t ≠ Tok.semi := by
            obtain ⟨pre, hpre⟩ := run_Suffix hr
            intro t ht; apply hsemi; rw [hpre]; simp [ht]
          simp only [List.cons_append, copyLoop, hb, Bool.false_eq_true, if_false,
            hrun N.partitions (Or.inr (Or.inl rfl)) r x r' hr]
          exact ih _ _ _ h hsuf hloc rest
    · rename_i toks r
      split at h
      · simp at h
      · rename_i hb
        cases hr : run N.options r with
        | none => rw [hr] at h; simp at h
        | some xr =>
          obtain ⟨x, r'⟩ := xr
          rw [hr] at h
          simp only at h
          have hsuf : ∀ t ∈ r', t ≠ Tok.semi := by
            obtain ⟨pre, hpre⟩ := run_Suffix hr
            intro t ht; apply hsemi; rw [hpre]; simp [ht]
          simp only [List.cons_append, copyLoop, hb, Bool.false_eq_true, if_false,
            hrun N.options (Or.inr (Or.inr rfl)) r x r' hr]
          exact ih _ _ _ h hsuf hloc rest
    · simp only [Option.some.injEq, Prod.mk.injEq, and_true] at h
      subst h
      simp [copyLoop]
    · exact absurd rfl (hsemi _ (by simp))
    · simp at h

/-- The parsers of the crate decide without looking past a semicolon. -/
def Local (p : List Tok → Option (α × Nat)) : Prop :=
  ∀ w x, p w = some x → ∀ rest, Ends rest → p (w ++ rest) = some x ∧ x.2 < w.length

theorem Local.run {p : List Tok → Option (α × Nat)} (h : Local p) {w r : List Tok} {x : α}
    (hr : run p w = some (x, r)) (rest : List Tok) (he : Ends rest) :
    run p (w ++ rest) = some (x, r ++ rest) := by
  cases w with
  | nil => simp [Sql.run] at hr
  | cons t w =>
    simp only [Sql.run, Option.map_eq_some_iff, Prod.mk.injEq] at hr
    obtain ⟨⟨x', n⟩, h1, h2, h3⟩ := hr
    simp only at h2 h3
    subst h2
    obtain ⟨h4, h5⟩ := h (t :: w) (x', n) h1 rest he
    simp only [List.cons_append] at h4
    simp only [List.cons_append, Sql.run, h4, Option.map_some]
    rw [← h3]
    simp only [List.drop_succ_cons, Option.some.injEq, Prod.mk.injEq, true_and]
    simp only [List.length_cons] at h5
    rw [List.drop_append_of_le_length (by omega)]

theorem copySource_local (N : Native) (hq : Local N.query) (hn : Local N.objectName)
    (w r : List Tok) (src : CopySource) (h : copySource N w = some (src, r)) (rest : List Tok)
    (he : Ends rest) : copySource N (w ++ rest) = some (src, r ++ rest) := by
  unfold copySource at h
  split at h
  · rename_i r0
    split at h
    · rename_i q r1 hr
      simp only [Option.some.injEq, Prod.mk.injEq] at h
      obtain ⟨rfl, rfl⟩ := h
      simp only [List.cons_append, copySource, hq.run hr rest he]
    · simp at h
  · rename_i hne
    rw [Option.map_eq_some_iff] at h
    obtain ⟨⟨n, r'⟩, h1, h2⟩ := h
    simp only [Prod.mk.injEq] at h2
    obtain ⟨rfl, rfl⟩ := h2
    have := hn.run h1 rest he
    unfold copySource
    split
    · rename_i heq
      cases w with
      | nil => simp [Sql.run] at h1
      | cons t w =>
        simp only [List.cons_append, List.cons.injEq] at heq
        exact absurd (by rw [heq.1]) (hne w)
    · rw [this]; rfl

/-- A COPY consumes one semicolon after it, whatever follows. -/
theorem copy_reads (N : Native) (hq : Local N.query) (hn : Local N.objectName)
    (hf : Local N.fileFormat) (hp : Local N.partitions) (ho : Local N.options)
    (w : List Tok) (s : Stmt) (hsemi : .semi ∉ w)
    (h : parseStatement N (.kw .copy :: w) = some (s, [])) (rest : List Tok) :
    parseStatement N (.kw .copy :: w ++ .semi :: rest) = some (s, rest) := by
  simp only [List.cons_append, List.append_assoc, List.nil_append, parseStatement] at h ⊢
  unfold parseCopy at h ⊢
  cases hc : copySource N w with
  | none => rw [hc] at h; simp at h
  | some r =>
    obtain ⟨src, r1⟩ := r
    rw [hc] at h
    simp only at h
    have hsuf : ∀ t ∈ r1, t ≠ Tok.semi := by
      have : Suffix w r1 := by
        unfold copySource at hc
        split at hc
        · split at hc
          · rename_i hr
            simp only [Option.some.injEq, Prod.mk.injEq] at hc
            rw [← hc.2]
            exact ((run_Suffix hr).trans ((Suffix.refl _).cons _)).cons _
          · simp at hc
        · exact runMap_Suffix (fun x => CopySource.relation x) hc
      obtain ⟨pre, hpre⟩ := this
      intro t ht hts
      apply hsemi
      rw [hpre, ← hts]; simp [ht]
    rw [copySource_local N hq hn w r1 src hc (.semi :: rest) (Or.inr rfl)]
    simp only
    cases hl : copyLoop N (r1.length + 1) {} r1 with
    | none => rw [hl] at h; simp at h
    | some r =>
      obtain ⟨b, r2⟩ := r
      rw [hl] at h
      simp only at h
      cases ht : b.target with
      | none => rw [ht] at h; simp at h
      | some t =>
        rw [ht] at h
        simp only [Option.some.injEq, Prod.mk.injEq] at h
        obtain ⟨rfl, rfl⟩ := h
        have := copyLoop_ends N (r1.length + 1) {} r1 b hl hsuf
          (by
            intro p hpp
            rcases hpp with rfl | rfl | rfl
            · exact hf
            · exact hp
            · exact ho) rest
        have hlen : (r1 ++ Tok.semi :: rest).length + 1 = r1.length + 1 + rest.length + 1 := by
          simp only [List.length_append, List.length_cons]; omega
        rw [hlen, this]
        simp only [ht]

/-- **C46 (COPY).** A COPY together with one semicolon is a statement of a script in the sense of
`C46_split_partial`; so COPY statements are read correctly when a further semicolon precedes the
next statement. -/
theorem C46_copy_partial (N : Native) (hq : Local N.query) (hn : Local N.objectName)
    (hf : Local N.fileFormat) (hp : Local N.partitions) (ho : Local N.options)
    (w : List Tok) (s : Stmt) (hsemi : .semi ∉ w)
    (h : parseStatement N (.kw .copy :: w) = some (s, [])) :
    IsStmt N (.kw .copy :: w ++ [.semi]) s := by
  refine ⟨⟨_, rfl, by simp⟩, fun rest _ => ?_⟩
  have := copy_reads N hq hn hf hp ho w s hsemi h rest
  simpa only [List.cons_append, List.append_assoc, List.nil_append] using this

/-- **C46 violated (COPY), always.** Wherever in a script a COPY is separated from the next statement by
a single semicolon, the whole script is rejected, whatever the COPY and the statement are. -/
theorem C46_copy_rejected (N : Native) (hq : Local N.query) (hn : Local N.objectName)
    (hf : Local N.fileFormat) (hp : Local N.partitions) (ho : Local N.options)
    (lead : Nat) (ps : List Piece) (hw : ∀ p ∈ ps, IsStmt N p.text p.stmt) (hs : ∀ p ∈ ps, 0 < p.semis)
    (w : List Tok) (s : Stmt) (hsemi : .semi ∉ w) (h : parseStatement N (.kw .copy :: w) = some (s, []))
    (t : Tok) (ht : t ≠ .semi) (more : List Tok) :
    parseSql N (script lead ps ++ (.kw .copy :: w ++ .semi :: t :: more)) = none := by
  have hr := copy_reads N hq hn hf hp ho w s hsemi h (t :: more)
  simp only [List.cons_append] at hr ⊢
  refine parseLoop_prefix N (.kw .copy) _ (fun f => ?_) _ lead ps false hw hs (by simp)
  cases f with
  | zero => rfl
  | succ f =>
    simp only [parseLoop, Bool.false_eq_true, if_false, hr, Option.map_eq_none_iff]
    cases f with
    | zero => rfl
    | succ f =>
      cases t with
      | semi => exact absurd rfl ht
      | _ => simp only [parseLoop, if_true]

/-- `;; COPY t TO 'x';; SELECT 1;;; TRUNCATE TABLE t` -/
example : parseSql demoN ([.semi, .semi] ++ demoCopy ++
      [.semi, .semi, .other 1, .semi, .semi, .semi, .kw .truncate, .kw .table, .ident "t"]) =
    some [.copyTo (.relation ["t"]) "x" none none none, .native 1, .truncate ["t"] none true] := by
  decide +kernel

/-- `SELECT 1 SELECT 2` is rejected. -/
example : parseSql demoN [.other 1, .other 2] = none := by decide +kernel

theorem demoN_local : Local demoN.query ∧ Local demoN.objectName ∧ Local demoN.fileFormat ∧
    Local demoN.partitions ∧ Local demoN.options := by
  refine ⟨?_, ?_, ?_, ?_, ?_⟩
  · intro w x h rest _
    simp only [demoN] at h ⊢
    split at h
    · injection h with h; subst h; simp
    · simp at h
  · intro w x h rest _
    simp only [demoN] at h ⊢
    split at h
    · injection h with h; subst h; simp
    · simp at h
  all_goals
    intro w x h
    simp [demoN] at h

/-- The hypotheses of `C46_copy_partial` and `C46_split_partial` are met by that script. -/
example : IsStmt demoN (demoCopy ++ [.semi]) (.copyTo (.relation ["t"]) "x" none none none) :=
  C46_copy_partial demoN demoN_local.1 demoN_local.2.1 demoN_local.2.2.1 demoN_local.2.2.2.1
    demoN_local.2.2.2.2 _ _ (by decide) (by decide +kernel)

/-- The hypotheses of `C46_copy_rejected` are met by `SELECT 1; COPY t TO 'x'; SELECT 2`. -/
example : parseSql demoN (script 0 [⟨[.other 1], .native 1, 1⟩] ++ (demoCopy ++ .semi :: .other 2 :: [])) = none ∧
    (∃ w, demoCopy = .kw .copy :: w ∧ .semi ∉ w) ∧
    parseStatement demoN demoCopy = some (.copyTo (.relation ["t"]) "x" none none none, []) := by
  refine ⟨by decide +kernel, ⟨_, rfl, by decide⟩, by decide +kernel⟩

/-! ### TRUNCATE and VACUUM -/

/-- **C47 (what is planned).** A truncation of a table is planned only for `TRUNCATE TABLE name`,
and a vacuum only for `VACUUM TABLE name` or `VACUUM DATABASE name`, of that very name — although
all three travel in the same node. -/
theorem C47_planned (N : Native) (toks : List Tok) (s : Stmt) (rest : List Tok)
    (h : parseStatement N toks = some (s, rest)) :
    (∀ n, planStmt s = .truncateTable n ↔
      ∃ t, toks = .kw .truncate :: .kw .table :: t ∧ run N.objectName t = some (n, rest)) ∧
    (∀ n, planStmt s = .vacuum none (some n) ↔
      ∃ t, toks = .kw .vacuum :: .kw .table :: t ∧ run N.objectName t = some (n, rest)) ∧
    (∀ d, planStmt s = .vacuum (some d) none ↔
      ∃ t ns, toks = .kw .vacuum :: .kw .database :: t ∧
        run N.objectName t = some (d :: ns, rest)) ∧
    (∀ d t, planStmt s = .vacuum d t → d = none ∧ t ≠ none ∨ d ≠ none ∧ t = none) := by
  have key : (∃ t n, toks = .kw .truncate :: .kw .table :: t ∧
        run N.objectName t = some (n, rest) ∧ s = .truncate n none true) ∨
      (∃ t n, toks = .kw .vacuum :: .kw .table :: t ∧
        run N.objectName t = some (n, rest) ∧ s = .truncate n none false) ∨
      (∃ t d ns, toks = .kw .vacuum :: .kw .database :: t ∧
        run N.objectName t = some (d :: ns, rest) ∧ s = .truncate [] (some d) false) ∨
      (planStmt s = .otherPlan ∧ (∀ t, toks ≠ .kw .truncate :: t) ∧ ∀ t, toks ≠ .kw .vacuum :: t) := by
    unfold parseStatement at h
    split at h
    · right; right; right
      refine ⟨?_, by simp, by simp⟩
      unfold parseCreate at h
      have hcr : ∀ o toks, parseCreateRest N o toks = some (s, rest) → planStmt s = .otherPlan := by
        intro o toks h
        unfold parseCreateRest at h
        split at h
        · rw [Option.map_eq_some_iff] at h
          obtain ⟨r, _, h⟩ := h
          simp only [Prod.mk.injEq] at h
          rw [← h.1]; rfl
        · rw [Option.map_eq_some_iff] at h
          obtain ⟨r, _, h⟩ := h
          simp only [Prod.mk.injEq] at h
          rw [← h.1]; rfl
        · simp at h
        · unfold parseCreateFunction at h
          split at h
          · simp only [Option.some.injEq, Prod.mk.injEq] at h
            rw [← h.1]; rfl
          · simp at h
        · rw [Option.map_eq_some_iff] at h
          obtain ⟨r, _, h⟩ := h
          simp only [Prod.mk.injEq] at h
          rw [← h.1]; rfl
      split at h
      · exact hcr _ _ h
      · exact hcr _ _ h
    · right; right; right
      refine ⟨?_, by simp, by simp⟩
      unfold parseConvert at h
      split at h
      · rw [Option.map_eq_some_iff] at h
        obtain ⟨r, _, h⟩ := h
        simp only [Prod.mk.injEq] at h
        rw [← h.1]; rfl
      · simp at h
    · right; right; right
      refine ⟨?_, by simp, by simp⟩
      unfold parseCopy at h
      split at h
      · simp at h
      · split at h
        · simp at h
        · split at h
          · simp at h
          · simp only [Option.some.injEq, Prod.mk.injEq] at h
            rw [← h.1]; rfl
    · unfold parseVacuum at h
      split at h
      · rename_i t
        right; left
        rw [Option.map_eq_some_iff] at h
        obtain ⟨⟨n, r⟩, h1, h⟩ := h
        simp only [Prod.mk.injEq] at h
        obtain ⟨rfl, rfl⟩ := h
        exact ⟨t, n, rfl, h1, rfl⟩
      · rename_i t
        right; right; left
        split at h
        · rename_i d ns r hr
          simp only [Option.some.injEq, Prod.mk.injEq] at h
          obtain ⟨rfl, rfl⟩ := h
          exact ⟨t, d, ns, rfl, hr, rfl⟩
        · simp at h
      · simp at h
    · unfold parseTruncate at h
      split at h
      · rename_i t
        left
        rw [Option.map_eq_some_iff] at h
        obtain ⟨⟨n, r⟩, h1, h⟩ := h
        simp only [Prod.mk.injEq] at h
        obtain ⟨rfl, rfl⟩ := h
        exact ⟨t, n, rfl, h1, rfl⟩
      · simp at h
    · rename_i n1 n2 n3 n4 n5
      right; right; right
      rw [Option.map_eq_some_iff] at h
      obtain ⟨r, _, h⟩ := h
      simp only [Prod.mk.injEq] at h
      refine ⟨by rw [← h.1]; rfl, fun t ht => n5 t ht, fun t ht => n4 t ht⟩
  rcases key with ⟨t, n, rfl, h1, rfl⟩ | ⟨t, n, rfl, h1, rfl⟩ | ⟨t, d, ns, rfl, h1, rfl⟩ | ⟨h1, h2, h3⟩
  · refine ⟨?_, by simp [planStmt], by simp [planStmt], by simp [planStmt]⟩
    intro n'
    simp only [planStmt, PlanNode.truncateTable.injEq]
    constructor
    · rintro rfl; exact ⟨t, rfl, h1⟩
    · rintro ⟨t', ht', h1'⟩
      simp only [List.cons.injEq, true_and] at ht'
      subst ht'
      rw [h1] at h1'
      simp only [Option.some.injEq, Prod.mk.injEq, and_true] at h1'
      exact h1'
  · refine ⟨by simp [planStmt], ?_, by simp [planStmt], by
      simp only [planStmt]; intro d t; simp only [PlanNode.vacuum.injEq]; rintro ⟨rfl, rfl⟩; simp⟩
    intro n'
    simp only [planStmt, Option.isNone_none, if_true, PlanNode.vacuum.injEq, true_and,
      Option.some.injEq]
    constructor
    · rintro rfl; exact ⟨t, rfl, h1⟩
    · rintro ⟨t', ht', h1'⟩
      simp only [List.cons.injEq, true_and] at ht'
      subst ht'
      rw [h1] at h1'
      simp only [Option.some.injEq, Prod.mk.injEq, and_true] at h1'
      exact h1'
  · refine ⟨by simp [planStmt], by simp [planStmt], ?_, by
      simp only [planStmt]; intro d t; simp only [PlanNode.vacuum.injEq]; rintro ⟨rfl, rfl⟩; simp⟩
    intro d'
    simp only [planStmt, Option.isNone_some, Bool.false_eq_true, if_false, PlanNode.vacuum.injEq,
      and_true, Option.some.injEq]
    constructor
    · rintro rfl; exact ⟨t, ns, rfl, h1⟩
    · rintro ⟨t', ns', ht', h1'⟩
      simp only [List.cons.injEq, true_and] at ht'
      subst ht'
      rw [h1] at h1'
      simp only [Option.some.injEq, Prod.mk.injEq, and_true, List.cons.injEq] at h1'
      exact h1'.1
  · rw [h1]
    refine ⟨?_, ?_, ?_, by simp⟩
    · intro n
      simp only [reduceCtorEq, false_iff]
      rintro ⟨t, ht, _⟩; exact h2 _ ht
    · intro n
      simp only [reduceCtorEq, false_iff]
      rintro ⟨t, ht, _⟩; exact h3 _ ht
    · intro n
      simp only [reduceCtorEq, false_iff]
      rintro ⟨t, _, ht, _⟩; exact h3 _ ht

example : (parseStatement demoN [.kw .vacuum, .kw .table, .ident "t"]).map (planStmt ·.1) =
      some (.vacuum none (some ["t"])) ∧
    (parseStatement demoN [.kw .vacuum, .kw .database, .ident "d"]).map (planStmt ·.1) =
      some (.vacuum (some "d") none) ∧
    (parseStatement demoN [.kw .truncate, .kw .table, .ident "t"]).map (planStmt ·.1) =
      some (.truncateTable ["t"]) ∧
    parseStatement demoN [.kw .truncate, .ident "t"] = none := by
  decide +kernel

/-! ### OR REPLACE -/

/-- **C66 (functions).** CREATE FUNCTION carries its OR REPLACE. -/
theorem C66_function_partial (N : Native) (toks rest : List Tok) (n : Name) (body : String)
    (h : run N.objectName toks = some (n, .kw .as :: .str body :: rest)) :
    parseStatement N (.kw .create :: .kw .or :: .kw .replace :: .kw .function :: toks) =
      some (.createFunction true n body, rest) ∧
    parseStatement N (.kw .create :: .kw .function :: toks) =
      some (.createFunction false n body, rest) := by
  constructor <;> simp [parseStatement, parseCreate, parseCreateRest, parseCreateFunction, h]

/-- **C66 violated (everything else).** For any other object, `CREATE OR REPLACE x` is read as the
very statement `CREATE x`: the words are consumed before the crate's parser sees them. -/
theorem C66_violated (N : Native) (toks : List Tok) (h1 : ∀ t, toks ≠ .kw .function :: t)
    (h2 : ∀ t, toks ≠ .kw .or :: .kw .replace :: t) :
    parseStatement N (.kw .create :: .kw .or :: .kw .replace :: toks) =
    parseStatement N (.kw .create :: toks) := by
  have h3 : parseCreate N toks = parseCreateRest N false toks := by
    unfold parseCreate
    split
    · exact absurd rfl (h2 _)
    · rfl
  simp only [parseStatement, h3, parseCreate]
  unfold parseCreateRest
  split
  · rfl
  · rfl
  · rfl
  · exact absurd rfl (h1 _)
  · rfl

/-- For instance `CREATE OR REPLACE <7>`. -/
example : parseSql demoN [.kw .create, .kw .or, .kw .replace, .other 7] = some [.nativeCreate 7] ∧
    parseSql demoN [.kw .create, .other 7] = some [.nativeCreate 7] := by
  decide +kernel

end Seafowl.Sql
