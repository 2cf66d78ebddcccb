import Verif.Script.Cli

/-!
# The lines of the command line (C97)
-/

namespace Seafowl.Cli

/-! ### what lines mean -/

/-- A typed command: a word directly after the backslash, further words, each after a gap, and a gap at the end. -/
structure Typed where
  first : Text
  rest : List (Text × Text)
  tail : Text

def Typed.text (t : Typed) : Text := '\\' :: (t.first ++ (t.rest.flatMap fun (gap, word) => gap ++ word) ++ t.tail)

structure Typed.Ok (ws : Char → Bool) (t : Typed) : Prop where
  first : ∀ c ∈ t.first, ws c = false
  gaps : ∀ p ∈ t.rest, p.1 ≠ [] ∧ ∀ c ∈ p.1, ws c = true
  words : ∀ p ∈ t.rest, p.2 ≠ [] ∧ ∀ c ∈ p.2, ws c = false
  tail : ∀ c ∈ t.tail, ws c = true

/-- The words with one space between them. -/
def spaced (l : List Text) : Text := (l.intersperse [' ']).flatten

/-- The commands of the help text: `\q` and `\quit`, `\?`, `\d`, `\d name`. -/
inductive Does : Text → List Text → Action → Prop where
  | q : Does "q".toList [] .quit
  | quit : Does "quit".toList [] .quit
  | help : Does "?".toList [] .help
  | tables : Does "d".toList [] (.sql "SHOW TABLES".toList)
  | describe (w : Text) (ws : List Text) : Does "d".toList (w :: ws) (.sql ("SHOW COLUMNS FROM ".toList ++ spaced (w :: ws)))
  | other (c : Text) (ws : List Text) : (c ≠ "d".toList ∧ (ws ≠ [] ∨ (c ≠ "q".toList ∧ c ≠ "quit".toList ∧ c ≠ "?".toList))) →
      Does c ws .invalid

/-! ### commands -/

section
variable {ws : Char → Bool}

theorem wordsAux_word (w : Text) (hw : ∀ c ∈ w, ws c = false) (cs cur : Text) :
    wordsAux ws (w ++ cs) cur = wordsAux ws cs (w.reverse ++ cur) := by
  induction w generalizing cur with
  | nil => rfl
  | cons c w ih =>
    rw [List.cons_append, wordsAux, hw c (by simp)]
    simp only [Bool.false_eq_true, if_false]
    rw [ih (fun d hd => hw d (List.mem_cons_of_mem _ hd))]
    simp

theorem wordsAux_gap (g : Text) (hg : ∀ c ∈ g, ws c = true) (cs : Text) : wordsAux ws (g ++ cs) [] = wordsAux ws cs [] := by
  induction g with
  | nil => rfl
  | cons c g ih =>
    rw [List.cons_append, wordsAux, hg c (by simp)]
    simpa using ih (fun d hd => hg d (List.mem_cons_of_mem _ hd))

theorem wordsAux_gap_cur (g : Text) (hne : g ≠ []) (hg : ∀ c ∈ g, ws c = true) (cs cur : Text) (hcur : cur ≠ []) :
    wordsAux ws (g ++ cs) cur = cur.reverse :: wordsAux ws cs [] := by
  cases g with
  | nil => exact absurd rfl hne
  | cons c g =>
    rw [List.cons_append, wordsAux, hg c (by simp)]
    have : cur.isEmpty = false := by cases cur with
      | nil => exact absurd rfl hcur
      | cons _ _ => rfl
    simp only [this, if_true, Bool.false_eq_true, if_false]
    rw [wordsAux_gap g (fun d hd => hg d (List.mem_cons_of_mem _ hd))]

theorem wordsAux_typed (rest : List (Text × Text)) (tail : Text) (cur : Text) (hcur : cur ≠ [])
    (hgaps : ∀ p ∈ rest, p.1 ≠ [] ∧ ∀ c ∈ p.1, ws c = true) (hwords : ∀ p ∈ rest, p.2 ≠ [] ∧ ∀ c ∈ p.2, ws c = false)
    (htail : ∀ c ∈ tail, ws c = true) :
    wordsAux ws ((rest.flatMap fun (gap, word) => gap ++ word) ++ tail) cur = cur.reverse :: rest.map Prod.snd := by
  induction rest generalizing cur with
  | nil =>
    simp only [List.flatMap_nil, List.nil_append, List.map_nil]
    have hne : cur.isEmpty = false := by cases cur with
      | nil => exact absurd rfl hcur
      | cons _ _ => rfl
    cases tail with
    | nil => simp [wordsAux, hcur]
    | cons c tail =>
      rw [wordsAux, htail c (by simp)]
      simp only [hne, if_true, Bool.false_eq_true, if_false]
      have := wordsAux_gap (ws := ws) tail (fun d hd => htail d (List.mem_cons_of_mem _ hd)) []
      rw [List.append_nil] at this
      rw [this]
      rfl
  | cons p rest ih =>
    obtain ⟨g, w⟩ := p
    have h1 := hgaps (g, w) (by simp)
    have h2 := hwords (g, w) (by simp)
    simp only [List.flatMap_cons, List.append_assoc, List.map_cons]
    rw [wordsAux_gap_cur g h1.1 h1.2 _ cur hcur, wordsAux_word w h2.2,
      ih (w.reverse ++ []) (by simpa using h2.1) (fun p hp => hgaps p (List.mem_cons_of_mem _ hp))
        (fun p hp => hwords p (List.mem_cons_of_mem _ hp))]
    simp

theorem words_typed (t : Typed) (ht : t.Ok ws) (hb : ws '\\' = false) :
    words ws t.text = ('\\' :: t.first) :: t.rest.map Prod.snd := by
  unfold words Typed.text
  have : '\\' :: (t.first ++ (t.rest.flatMap fun (gap, word) => gap ++ word) ++ t.tail) =
      ('\\' :: t.first) ++ ((t.rest.flatMap fun (gap, word) => gap ++ word) ++ t.tail) := by simp
  rw [this, wordsAux_word ('\\' :: t.first) (by
    intro c hc
    rcases List.mem_cons.1 hc with h | h
    · rw [h]; exact hb
    · exact ht.first c h), wordsAux_typed t.rest t.tail _ (by simp) ht.gaps ht.words ht.tail]
  simp

theorem splitOnce_none (s : Text) (h : ' ' ∉ s) : splitOnce s = none := by
  induction s with
  | nil => rfl
  | cons c s ih =>
    rw [List.mem_cons, not_or] at h
    rw [splitOnce, if_neg (Ne.symm h.1), ih h.2]
    rfl

theorem splitOnce_some (s r : Text) (h : ' ' ∉ s) : splitOnce (s ++ ' ' :: r) = some (s, r) := by
  induction s with
  | nil => rfl
  | cons c s ih =>
    rw [List.mem_cons, not_or] at h
    rw [List.cons_append, splitOnce, if_neg (Ne.symm h.1), ih h.2]
    rfl

theorem joinSp_spaced (l : List Text) : joinSp l = spaced l := by
  unfold spaced
  induction l with
  | nil => rfl
  | cons w l ih =>
    cases l with
    | nil => simp [joinSp]
    | cons v l =>
      rw [joinSp, ih]
      · simp
      · simp

end

/-- **C97**: however many spaces, tabs or other whitespace are between and after its words, a line that begins with a
backslash is the command of the help text, or reported as invalid. -/
theorem C97_commands (ws : Char → Bool) (hsp : ws ' ' = true) (hb : ws '\\' = false) (t : Typed) (ht : t.Ok ws) :
    Does t.first (t.rest.map Prod.snd) (handleLine ws t.text) := by
  have hline : handleLine ws t.text = match parseCommand ((joinSp (words ws t.text)).drop 1) with
      | some c => runCommand c
      | none => .invalid := rfl
  have hno : ' ' ∉ t.first := fun h => by have := ht.first ' ' h; rw [hsp] at this; cases this
  rw [hline, words_typed t ht hb]
  cases hr : t.rest.map Prod.snd with
  | nil =>
    have : (joinSp [('\\' :: t.first)]).drop 1 = t.first := rfl
    rw [this]
    unfold parseCommand
    rw [splitOnce_none _ hno]
    by_cases h1 : t.first = "q".toList
    · simp only [h1, decide_true, Bool.true_or, if_true]; exact Does.q
    · by_cases h2 : t.first = "quit".toList
      · simp only [h2, decide_true, Bool.or_true, if_true]; exact Does.quit
      · by_cases h3 : t.first = "d".toList
        · rw [h3]; exact Does.tables
        · by_cases h4 : t.first = "?".toList
          · rw [h4]; exact Does.help
          · simp only [h1, h2, h3, h4, decide_false, Bool.or_false, Bool.false_eq_true, if_false]
            exact Does.other _ _ ⟨h3, .inr ⟨h1, h2, h4⟩⟩
  | cons w rest =>
    have : (joinSp (('\\' :: t.first) :: w :: rest)).drop 1 = t.first ++ ' ' :: joinSp (w :: rest) := rfl
    rw [this]
    unfold parseCommand
    rw [splitOnce_some _ _ hno]
    by_cases h3 : t.first = "d".toList
    · simp only [h3, if_true, runCommand, joinSp_spaced]; exact Does.describe w rest
    · simp only [h3, if_false]; exact Does.other _ _ ⟨h3, .inl (by simp)⟩

/-- Each line has only one meaning. -/
theorem does_unique (c : Text) (l : List Text) (a b : Action) (ha : Does c l a) (hb : Does c l b) : a = b := by
  cases ha <;> cases hb <;> first | rfl | (rename_i h; revert h; decide) | (rename_i h; exact absurd rfl h.1) | skip
  all_goals (rename_i h; obtain ⟨h1, h2⟩ := h; rcases h2 with h2 | ⟨h2, h3, h4⟩ <;> simp_all)

/-- **C97**: what does not begin with a backslash is executed as it was typed. -/
theorem C97_verbatim (ws : Char → Bool) (line : Text) (h : line.head? ≠ some '\\') : handleLine ws line = .sql line := by
  unfold handleLine
  split
  · next cs => exact absurd rfl h
  · rfl

/-! ### inputs of several lines -/

/-- Lines that were typed one after the other. -/
def typedLines (l : List Text) : Text := (l.intersperse ['\n']).flatten

/-- The input looks complete: a command, or a semicolon with nothing but whitespace after it. -/
def LooksComplete (ws : Char → Bool) (s : Text) : Prop :=
  (∃ a b, s = a ++ ';' :: b ∧ ∀ c ∈ b, ws c = true) ∨ (∃ r, s = '\\' :: r)

theorem trimEnd_spec (ws : Char → Bool) (s : Text) : ∃ b, s = trimEnd ws s ++ b ∧ (∀ c ∈ b, ws c = true) ∧
    ∀ c, (trimEnd ws s).getLast? = some c → ws c = false := by
  refine ⟨(s.reverse.takeWhile ws).reverse, ?_, ?_, ?_⟩
  · unfold trimEnd
    rw [← List.reverse_append, List.takeWhile_append_dropWhile, List.reverse_reverse]
  · intro c hc
    rw [List.mem_reverse] at hc
    have := List.all_takeWhile (p := ws) (l := s.reverse)
    exact List.all_eq_true.1 this c hc
  · intro c hc
    unfold trimEnd at hc
    rw [List.getLast?_reverse] at hc
    have := List.head?_dropWhile_not ws s.reverse
    rw [hc] at this
    simpa using this

theorem complete_iff (ws : Char → Bool) (hs : ws ';' = false) (hb : ws '\\' = false) (s : Text) :
    complete ws s = true ↔ LooksComplete ws s := by
  obtain ⟨b, h1, h2, h3⟩ := trimEnd_spec ws s
  unfold complete LooksComplete
  simp only [Bool.or_eq_true, beq_iff_eq]
  constructor
  · rintro (h | h)
    · left
      obtain ⟨a, ha⟩ := List.getLast?_eq_some_iff.1 h
      exact ⟨a, b, by rw [h1, ha]; simp, h2⟩
    · right
      obtain ⟨r, hr⟩ := List.head?_eq_some_iff.1 h
      exact ⟨r ++ b, by rw [h1, hr]; rfl⟩
  · rintro (⟨a, b', h, hb'⟩ | ⟨r, h⟩)
    · left
      have : trimEnd ws s = a ++ [';'] := by
        unfold trimEnd
        rw [h]
        have hrev : (a ++ ';' :: b').reverse = b'.reverse ++ (';' :: a.reverse) := by simp
        rw [hrev, List.dropWhile_append_of_pos (by intro c hc; exact hb' c (List.mem_reverse.1 hc)), List.dropWhile_cons_of_neg (by simp [hs])]
        simp
      rw [this]
      simp
    · right
      cases ht : trimEnd ws s with
      | nil =>
        rw [ht, List.nil_append] at h1
        have := h2 '\\' (by rw [← h1, h]; simp)
        rw [hb] at this
        cases this
      | cons c cs =>
        rw [ht, h] at h1
        simp only [List.cons_append, List.cons.injEq] at h1
        rw [← h1.1]; rfl

theorem typedLines_snoc (pre : List Text) (hne : pre ≠ []) (l : Text) : typedLines (pre ++ [l]) = typedLines pre ++ '\n' :: l := by
  unfold typedLines
  induction pre with
  | nil => exact absurd rfl hne
  | cons a pre ih =>
    cases pre with
    | nil => simp
    | cons b pre =>
      have := ih (by simp)
      simp only [List.cons_append, List.intersperse_cons_cons, List.flatten_cons] at this ⊢
      rw [this]
      simp

/-- Reading an input takes the shortest beginning of the lines that looks complete, and leaves the rest. -/
theorem readInput_spec (ws : Char → Bool) (hs : ws ';' = false) (hb : ws '\\' = false) (rest pre : List Text) (hne : pre ≠ [])
    (hpre : ∀ k, 0 < k → k < pre.length → ¬ LooksComplete ws (typedLines (pre.take k))) :
    match readInput ws (typedLines pre) rest with
    | some (input, rest') => ∃ p, pre ++ rest = p ++ rest' ∧ p ≠ [] ∧ input = typedLines p ∧ LooksComplete ws input ∧
        ∀ k, 0 < k → k < p.length → ¬ LooksComplete ws (typedLines (p.take k))
    | none => ∀ k, 0 < k → k ≤ (pre ++ rest).length → ¬ LooksComplete ws (typedLines ((pre ++ rest).take k)) := by
  induction rest generalizing pre with
  | nil =>
    unfold readInput
    by_cases hc : complete ws (typedLines pre) = true
    · rw [if_pos hc]
      exact ⟨pre, rfl, hne, rfl, (complete_iff ws hs hb _).1 hc, hpre⟩
    · rw [if_neg hc]
      intro k h0 hk hl
      rw [List.append_nil] at hk hl
      by_cases hkl : k = pre.length
      · subst hkl
        rw [List.take_length] at hl
        exact hc ((complete_iff ws hs hb _).2 hl)
      · exact hpre k h0 (by omega) hl
  | cons l rest ih =>
    unfold readInput
    by_cases hc : complete ws (typedLines pre) = true
    · rw [if_pos hc]
      exact ⟨pre, rfl, hne, rfl, (complete_iff ws hs hb _).1 hc, hpre⟩
    · rw [if_neg hc]
      have h := ih (pre ++ [l]) (by simp) (by
        intro k h0 hk hl
        rw [List.length_append, List.length_singleton] at hk
        by_cases hkl : k = pre.length
        · subst hkl
          rw [List.take_left] at hl
          exact hc ((complete_iff ws hs hb _).2 hl)
        · rw [List.take_append_of_le_length (by omega)] at hl
          exact hpre k h0 (by omega) hl)
      rw [typedLines_snoc pre hne l] at h
      simpa using h

/-- What is done with lines: nothing, if no beginning looks complete; else the shortest such beginning is handled, and then the
rest, unless it says to quit. -/
inductive Session (ws : Char → Bool) : List Text → List Action → Prop where
  | none (lines) : (∀ k, 0 < k → k ≤ lines.length → ¬ LooksComplete ws (typedLines (lines.take k))) → Session ws lines []
  | quit (p rest) : p ≠ [] → LooksComplete ws (typedLines p) →
      (∀ k, 0 < k → k < p.length → ¬ LooksComplete ws (typedLines (p.take k))) →
      handleLine ws (typedLines p) = .quit → Session ws (p ++ rest) [.quit]
  | next (p rest as) : p ≠ [] → LooksComplete ws (typedLines p) →
      (∀ k, 0 < k → k < p.length → ¬ LooksComplete ws (typedLines (p.take k))) →
      handleLine ws (typedLines p) ≠ .quit → Session ws rest as → Session ws (p ++ rest) (handleLine ws (typedLines p) :: as)

/-- **C97**: the lines typed are handled one input after the other; no line is lost or used twice. -/
theorem C97_session (ws : Char → Bool) (hs : ws ';' = false) (hb : ws '\\' = false) (lines : List Text) :
    Session ws lines (session ws lines) := by
  have key : ∀ n (lines : List Text), lines.length ≤ n → Session ws lines (loop ws n lines) := by
    intro n
    induction n with
    | zero =>
      intro lines hl
      cases lines with
      | nil => exact .none _ (fun k h0 hk => absurd hk (by simp; omega))
      | cons _ _ => simp at hl
    | succ n ih =>
      intro lines hl
      cases lines with
      | nil => exact .none _ (fun k h0 hk => absurd hk (by simp; omega))
      | cons l ls =>
        have h := readInput_spec ws hs hb ls [l] (by simp) (by intro k h0 hk; simp at hk; omega)
        have ht : typedLines [l] = l := by simp [typedLines]
        rw [ht] at h
        unfold loop
        cases hr : readInput ws l ls with
        | none =>
          rw [hr] at h
          exact .none _ h
        | some r =>
          obtain ⟨input, rest⟩ := r
          rw [hr] at h
          obtain ⟨p, h1, h2, h3, h4, h5⟩ := h
          subst h3
          have hlen : rest.length ≤ n := by
            have h6 : ([l] ++ ls).length = (p ++ rest).length := by rw [h1]
            have h7 : 0 < p.length := List.length_pos_iff.2 h2
            simp only [List.length_append, List.length_cons, List.length_nil] at h6 hl
            omega
          have hl2 : l :: ls = p ++ rest := h1
          rw [hl2]
          simp only
          by_cases hq : handleLine ws (typedLines p) = .quit
          · rw [hq]; exact .quit p rest h2 h4 h5 hq
          · have := Session.next p rest _ h2 h4 h5 hq (ih rest hlen)
            revert this hq
            cases handleLine ws (typedLines p) <;> simp
  exact key _ _ (Nat.le_refl _)

/-- Whitespace in the examples. -/
def ws0 (c : Char) : Bool := c == ' ' || c == '\t' || c == '\n'

/-- **C97 does not hold** for all names and statements: `\d` executes whatever follows a semicolon in its argument; a semicolon
at the end of a line inside a literal ends the input; a comment after the last semicolon keeps the input from being executed. -/
theorem C97_violated :
    handleLine ws0 "\\d t; DROP TABLE t".toList = .sql "SHOW COLUMNS FROM t; DROP TABLE t".toList ∧
    session ws0 ["SELECT 'a;".toList, "b';".toList] = [.sql "SELECT 'a;".toList, .sql "b';".toList] ∧
    session ws0 ["SELECT 1; -- one".toList] = [] := by
  refine ⟨by decide +kernel, by decide +kernel, by decide +kernel⟩

/-- Whatever the name and whatever the words of a statement after the semicolon, `\d` hands both on to be executed. -/
theorem C97_violated_describe (ws : Char → Bool) (hsp : ws ' ' = true) (hsemi : ws ';' = false) (hb : ws '\\' = false)
    (hd : ws 'd' = false) (name : Text) (hname : ∀ c ∈ name, ws c = false) (stmt : List Text)
    (hstmt : ∀ w ∈ stmt, w ≠ [] ∧ ∀ c ∈ w, ws c = false) :
    handleLine ws ("\\d ".toList ++ name ++ [';'] ++ stmt.flatMap (fun w => ' ' :: w)) =
      .sql ("SHOW COLUMNS FROM ".toList ++ (name ++ [';'] ++ stmt.flatMap (fun w => ' ' :: w))) := by
  have hsp2 : ∀ (w : Text) (l : List Text), spaced (w :: l) = w ++ l.flatMap (fun v => ' ' :: v) := by
    intro w l
    unfold spaced
    induction l generalizing w with
    | nil => simp
    | cons v l ih =>
      rw [List.intersperse_cons_cons, List.flatten_cons, List.flatten_cons, ih v]
      simp
  have key := C97_commands ws hsp hb
    ⟨"d".toList, ([' '], name ++ [';']) :: stmt.map (fun w => ([' '], w)), []⟩ ⟨by simpa using hd, by simp [hsp], by
      intro p hp
      rcases List.mem_cons.1 hp with rfl | hp
      · refine ⟨by simp, fun c hc => ?_⟩
        rcases List.mem_append.1 hc with h | h
        · exact hname c h
        · rw [List.mem_singleton.1 h]; exact hsemi
      · obtain ⟨w, hw, rfl⟩ := List.mem_map.1 hp
        exact hstmt w hw, by simp⟩
  have ht : (Typed.text ⟨"d".toList, ([' '], name ++ [';']) :: stmt.map (fun w => ([' '], w)), []⟩) =
      "\\d ".toList ++ name ++ [';'] ++ stmt.flatMap (fun w => ' ' :: w) := by
    simp [Typed.text, List.flatMap_map]
  rw [ht] at key
  simp only [List.map_cons, List.map_map, Function.comp_def, List.map_id'] at key
  generalize handleLine ws ("\\d ".toList ++ name ++ [';'] ++ stmt.flatMap (fun w => ' ' :: w)) = a at key ⊢
  cases key with
  | describe w l => rw [hsp2]
  | other c l h => exact absurd rfl h.1

/-- Any line that ends with a semicolon is executed as a whole input, also if the semicolon is inside a literal or a
comment. -/
theorem C97_violated_literal (ws : Char → Bool) (hs : ws ';' = false) (l : Text) (hl : l.head? ≠ some '\\')
    (rest : List Text) : session ws ((l ++ [';']) :: rest) = .sql (l ++ [';']) :: session ws rest := by
  have hh : (l ++ [';']).head? ≠ some '\\' := by
    cases l with
    | nil => decide
    | cons c l => simpa using hl
  have hc : complete ws (l ++ [';']) = true := by
    simp [complete, trimEnd, hs]
  have hr : readInput ws (l ++ [';']) rest = some (l ++ [';'], rest) := by
    rw [readInput.eq_def]; simp [hc]
  simp only [session, List.length_cons, loop, hr, C97_verbatim ws _ hh]

/-- A last line with anything else at its end, for instance a comment after the semicolon, is not executed. -/
theorem C97_violated_comment (ws : Char → Bool) (l : Text) (x : Char) (hx : ws x = false) (hsemi : x ≠ ';')
    (hl : (l ++ [x]).head? ≠ some '\\') : session ws [l ++ [x]] = [] := by
  have ht : trimEnd ws (l ++ [x]) = l ++ [x] := by simp [trimEnd, hx]
  have hc : complete ws (l ++ [x]) = false := by
    simp only [complete, ht, Bool.or_eq_false_iff, beq_eq_false_iff_ne]
    exact ⟨by simp [hsemi], hl⟩
  have hr : readInput ws (l ++ [x]) [] = none := by
    rw [readInput.eq_def]; simp [hc]
  simp only [session, List.length_cons, loop, hr]

/-- The hypotheses of the theorems hold for usual lines. -/
example : Typed.Ok ws0 ⟨"d".toList, [(" \t".toList, "t".toList)], " ".toList⟩ ∧
    handleLine ws0 "\\d \tt ".toList = .sql "SHOW COLUMNS FROM t".toList ∧
    session ws0 ["SELECT 1".toList, "+ 2; ".toList, "\\d".toList, "\\x".toList, "\\q".toList, "SELECT 3;".toList] =
      [.sql "SELECT 1\n+ 2; ".toList, .sql "SHOW TABLES".toList, .invalid, .quit] := by
  refine ⟨⟨by decide, by decide, by decide, by decide⟩, by decide +kernel, by decide +kernel⟩

end Seafowl.Cli
