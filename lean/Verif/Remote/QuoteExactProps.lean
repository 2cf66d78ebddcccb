/-
C49, exactly: which strings MySQL reads back, that any SQL can be put behind a backslash, and that
what falls through to `Display` is never read back as a string.
-/
import Verif.Remote.QuoteProps

set_option linter.unusedSimpArgs false

namespace Seafowl.Remote

/-! ### A literal is longer than the string -/

/-- What is read so far, with the quotes. -/
def LexSt.size : LexSt → Nat
  | .str acc => acc.length + 1
  | .strQ acc => acc.length + 2
  | .esc acc => acc.length + 2
  | _ => 0

theorem unescape_length (c : Char) : (unescape c).length ≤ 2 := by
  unfold unescape
  repeat' split
  all_goals simp

theorem goOn_size (d : Dialect) (st st' : LexSt) (c : Char) (h : goOn d st c = some st') :
    st'.size ≤ st.size + 1 := by
  cases st <;> simp only [goOn] at h
  all_goals (repeat' split at h)
  all_goals (try (injection h with h; subst h))
  all_goals (try simp only [LexSt.size, List.length_cons, List.length_append])
  all_goals (try cases h)
  all_goals (try simp only [LexSt.size, List.length_cons, List.length_append])
  all_goals (try omega)
  have := unescape_length c
  omega

theorem begin_size (d : Dialect) (c : Char) (st : LexSt) (out : List Lexeme)
    (h : beginLex d c = (some st, out)) : st.size ≤ 1 ∧ ∀ w, Lexeme.str w ∉ out := by
  unfold beginLex at h
  repeat' split at h
  all_goals (try (simp only [Prod.mk.injEq, Option.some.injEq] at h; obtain ⟨rfl, rfl⟩ := h))
  all_goals (try simp [LexSt.size])
  simp at h

theorem flush_size (d : Dialect) (st : LexSt) (out : List Lexeme) (h : flush d st = some out) (w : Str)
    (hw : Lexeme.str w ∈ out) : w.length + 2 ≤ st.size := by
  cases st <;> simp only [flush] at h
  case idQ acc =>
    split at h
    · cases h
    · injection h with h; subst h; simp at hw
  all_goals (try (injection h with h; subst h))
  all_goals (try (simp at hw))
  all_goals (try (cases h))
  subst hw
  simp [LexSt.size]

theorem lexFrom_size (d : Dialect) : ∀ (s : Str) (st : LexSt) (ls : List Lexeme),
    lexFrom d st s = some ls → ∀ w, Lexeme.str w ∈ ls → w.length + 2 ≤ st.size + s.length
  | [], st, ls, h, w, hw => by
    simpa using flush_size d st ls h w hw
  | c :: s, st, ls, h, w, hw => by
    simp only [lexFrom] at h
    cases hg : goOn d st c with
    | some st' =>
      rw [hg] at h
      have h1 := lexFrom_size d s st' ls h w hw
      have h2 := goOn_size d st st' c hg
      simp only [List.length_cons]
      omega
    | none =>
      rw [hg] at h
      simp only at h
      cases hf : flush d st with
      | none => rw [hf] at h; simp at h
      | some out =>
        rw [hf] at h
        cases hb : beginLex d c with
        | mk o out' =>
          rw [hb] at h
          cases o with
          | none => simp at h
          | some st' =>
            simp only [Option.map_eq_some_iff] at h
            obtain ⟨r, hr, rfl⟩ := h
            have hb' := begin_size d c st' out' hb
            rcases List.mem_append.1 hw with hw | hw
            · rcases List.mem_append.1 hw with hw | hw
              · have := flush_size d st out hf w hw
                omega
              · exact absurd hw (hb'.2 w)
            · have := lexFrom_size d s st' r hr w hw
              simp only [List.length_cons]
              omega

/-- **C49 is violated for every `Utf8View` string** (and everything else that falls through to
`Display`): whatever the string is and whatever the dialect, the text that is sent does not contain
it as a string literal. -/
theorem C49_violated_view_always (d : Dialect) (v : Str) :
    ∃ t, scalarToSql (.other v) = some t ∧ ∀ ls, lex d t = some ls → Lexeme.str v ∉ ls := by
  refine ⟨v, rfl, ?_⟩
  intro ls h hm
  have := lexFrom_size d v .start ls h v hm
  simp only [LexSt.size] at this
  omega

/-- **C49 is violated for every decimal**: it is sent as Rust's debug output and read as eight
lexemes. -/
theorem C49_violated_decimal_always (d : Dialect) (n p s : Nat) :
    ∃ t, scalarToSql (.other ("Some".toList ++ ('(' :: dec n ++ [')']) ++ ',' :: dec p ++ ',' :: dec s)) = some t ∧
      lex d t = some [.word "Some".toList, .sym ['('], .num n, .sym [')'], .sym [','], .num p,
        .sym [','], .num s] := by
  refine ⟨_, rfl, ?_⟩
  have h1 : ∀ rest, lexFrom d .start ("Some".toList ++ '(' :: rest) =
      (lexFrom d .start ('(' :: rest)).map ([.word "Some".toList] ++ ·) := by
    intro rest
    have e : "Some".toList = ['S', 'o', 'm', 'e'] := by decide
    have hb : beginLex d 'S' = (some (.word ['S']), []) := by cases d <;> rfl
    have g1 : goOn d (.word ['S']) 'o' = some (.word ['o', 'S']) := rfl
    have g2 : goOn d (.word ['o', 'S']) 'm' = some (.word ['m', 'o', 'S']) := rfl
    have g3 : goOn d (.word ['m', 'o', 'S']) 'e' = some (.word ['e', 'm', 'o', 'S']) := rfl
    have g4 : goOn d (.word ['e', 'm', 'o', 'S']) '(' = none := rfl
    have hb2 : beginLex d '(' = (some .start, [.sym ['(']]) := by cases d <;> rfl
    have g0 : ∀ c, goOn d .start c = none := fun _ => rfl
    rw [e]
    simp only [List.cons_append, List.nil_append, lexFrom, g0, g1, g2, g3, g4, hb, hb2, flush,
      Option.map_map]
    rfl
  have e : "Some".toList ++ ('(' :: dec n ++ [')']) ++ ',' :: dec p ++ ',' :: dec s =
      "Some".toList ++ '(' :: (dec n ++ ')' :: ',' :: (dec p ++ ',' :: dec s)) := by simp
  rw [lex, e, h1, lex_open, lexes_nat d n _ (term_close _), lex_close, lex_comma,
    lexes_nat d p _ (term_comma _), lex_comma]
  have := (lexes_nat d s).lex
  rw [lex] at this
  rw [this]
  rfl

/-! ### MySQL strings -/

/-- Characters by twos, quotes by ones: what is left of a string when its quotes are doubled. -/
def weight : Str → Nat
  | [] => 0
  | c :: s => (if c = '\'' then 1 else 2) + weight s

theorem weight_append (s t : Str) : weight (s ++ t) = weight s + weight t := by
  induction s with
  | nil => simp [weight]
  | cons c s ih => simp only [List.cons_append, weight, ih]; omega

theorem weight_dbl (s : Str) : weight (dbl '\'' s) = 2 * s.length := by
  induction s with
  | nil => rfl
  | cons c s ih =>
    by_cases hc : c = '\''
    · simp only [dbl, if_pos hc, weight, if_true, ih, List.length_cons]; omega
    · simp only [dbl, if_neg hc, weight, ih, List.length_cons]; omega

/-- A bound on the first string read. -/
theorem first_str (d : Dialect) (w : Str) (ls : List Lexeme) : ∀ (s acc : Str),
    (lexFrom d (.str acc) s = some (.str w :: ls) → 2 * w.length + 1 ≤ 2 * acc.length + weight s) ∧
    (lexFrom d (.strQ acc) s = some (.str w :: ls) → 2 * w.length ≤ 2 * acc.length + weight s) ∧
    (lexFrom d (.esc acc) s = some (.str w :: ls) → 2 * w.length ≤ 2 * acc.length + 1 + weight s)
  | [], acc => by
    refine ⟨fun h => by simp [lexFrom, flush] at h, fun h => ?_, fun h => by simp [lexFrom, flush] at h⟩
    simp only [lexFrom, flush, Option.some.injEq, List.cons.injEq, Lexeme.str.injEq] at h
    rw [← h.1]
    simp [weight]
  | c :: s, acc => by
    refine ⟨fun h => ?_, fun h => ?_, fun h => ?_⟩
    · simp only [lexFrom, goOn] at h
      by_cases hc : c = '\''
      · simp only [if_pos hc] at h
        have := (first_str d w ls s acc).2.1 h
        simp only [weight, if_pos hc]
        omega
      · simp only [if_neg hc] at h
        by_cases hb : d = .mysql ∧ c = '\\'
        · simp only [if_pos hb] at h
          have := (first_str d w ls s acc).2.2 h
          simp only [weight, if_neg hc]
          omega
        · simp only [if_neg hb] at h
          have := (first_str d w ls s (c :: acc)).1 h
          simp only [List.length_cons] at this
          simp only [weight, if_neg hc]
          omega
    · simp only [lexFrom, goOn] at h
      by_cases hc : c = '\''
      · simp only [if_pos hc] at h
        have := (first_str d w ls s ('\'' :: acc)).1 h
        simp only [List.length_cons] at this
        simp only [weight, if_pos hc]
        omega
      · simp only [if_neg hc, flush] at h
        cases hb : beginLex d c with
        | mk o out' =>
          rw [hb] at h
          cases o with
          | none => simp at h
          | some st' =>
            simp only [Option.map_eq_some_iff] at h
            obtain ⟨r, _, hr⟩ := h
            simp only [List.cons_append, List.cons.injEq, Lexeme.str.injEq] at hr
            rw [← hr.1]
            simp
    · simp only [lexFrom, goOn] at h
      have h1 := (first_str d w ls s (unescape c ++ acc)).1 h
      simp only [List.length_append] at h1
      have h2 := unescape_length c
      have h3 : c = '\'' → (unescape c).length = 1 := by rintro rfl; rfl
      simp only [weight]
      split
      · rename_i hc
        have := h3 hc
        omega
      · omega

/-- Every backslash stands before a wildcard of `LIKE`. -/
def WildcardsOnly (v : Str) : Prop :=
  ∀ p q, v = p ++ '\\' :: q → ∃ c r, q = c :: r ∧ (c = '%' ∨ c = '_')

theorem WildcardsOnly.tail {c : Char} {v : Str} (h : WildcardsOnly (c :: v)) : WildcardsOnly v := by
  intro p q e
  exact h (c :: p) q (by rw [e]; rfl)

/-- Strings of the good kind are read back … -/
theorem mysql_reads : ∀ (n : Nat) (s acc rest : Str), s.length ≤ n → WildcardsOnly s →
    lexFrom .mysql (.str acc) (dbl '\'' s ++ '\'' :: rest) = lexFrom .mysql (.strQ (s.reverse ++ acc)) rest
  | n, [], acc, rest, _, _ => by simp [dbl, lexFrom, goOn]
  | 0, c :: s, acc, rest, hn, _ => by simp at hn
  | n + 1, c :: s, acc, rest, hn, h => by
    simp only [List.length_cons] at hn
    by_cases hc : c = '\''
    · subst hc
      simp only [dbl, if_true, List.cons_append, lexFrom, goOn]
      rw [mysql_reads n s _ rest (by omega) h.tail]
      simp
    · by_cases hb : c = '\\'
      · subst hb
        obtain ⟨x, r, rfl, hx⟩ := h [] s rfl
        simp only [List.length_cons] at hn
        have hx' : x ≠ '\'' := by rcases hx with rfl | rfl <;> decide
        have hu : unescape x = [x, '\\'] := by rcases hx with rfl | rfl <;> rfl
        have hq : ('\\' : Char) ≠ '\'' := by decide
        simp only [dbl, if_neg hq, if_neg hx', List.cons_append, lexFrom, goOn, true_and, if_true, hu]
        rw [mysql_reads n r _ rest (by omega) h.tail.tail]
        simp
      · simp only [dbl, if_neg hc, List.cons_append, lexFrom, goOn, true_and, if_neg hb]
        rw [mysql_reads n s _ rest (by omega) h.tail]
        simp

theorem wild_cons {c : Char} {s : Str} (hc : c ≠ '\\') (h : WildcardsOnly s) : WildcardsOnly (c :: s) := by
  intro p q e
  cases p with
  | nil =>
    simp only [List.nil_append, List.cons.injEq] at e
    exact absurd e.1 hc
  | cons x p =>
    simp only [List.cons_append, List.cons.injEq] at e
    exact h p q e.2

/-- … and the others are not: something is lost at the first other backslash. -/
theorem mysql_loses : ∀ (n : Nat) (s acc : Str) (ls : List Lexeme), s.length ≤ n →
    lexFrom .mysql (.str acc) (dbl '\'' s ++ ['\'']) = some (.str (acc.reverse ++ s) :: ls) →
    WildcardsOnly s
  | n, [], acc, ls, _, _ => by
    intro p q e
    simp at e
  | 0, c :: s, acc, ls, hn, _ => by simp at hn
  | n + 1, c :: s, acc, ls, hn, h => by
    simp only [List.length_cons] at hn
    by_cases hc : c = '\''
    · subst hc
      simp only [dbl, if_true, List.cons_append, lexFrom, goOn] at h
      exact wild_cons (by decide) (mysql_loses n s ('\'' :: acc) ls (by omega) (by simpa using h))
    · by_cases hb : c = '\\'
      · subst hb
        have hq : ('\\' : Char) ≠ '\'' := by decide
        simp only [dbl, if_neg hq, List.cons_append, lexFrom, goOn, true_and, if_true] at h
        cases s with
        | nil => simp [dbl, lexFrom, goOn, flush] at h
        | cons x r =>
          simp only [List.length_cons] at hn
          by_cases hx : x = '%' ∨ x = '_'
          · have hx' : x ≠ '\'' := by rcases hx with rfl | rfl <;> decide
            have hx'' : x ≠ '\\' := by rcases hx with rfl | rfl <;> decide
            have hu : unescape x = [x, '\\'] := by rcases hx with rfl | rfl <;> rfl
            simp only [dbl, if_neg hx', List.cons_append, lexFrom, goOn, hu, List.nil_append] at h
            have ih := mysql_loses n r (x :: '\\' :: acc) ls (by omega) (by simpa using h)
            intro p q e
            cases p with
            | nil =>
              simp only [List.nil_append, List.cons.injEq, true_and] at e
              exact ⟨x, r, e.symm, hx⟩
            | cons y p =>
              simp only [List.cons_append, List.cons.injEq] at e
              exact wild_cons hx'' ih p q e.2
          · exfalso
            have hu : (unescape x).length = 1 := by
              unfold unescape
              rw [if_neg hx]
              repeat' split
              all_goals rfl
            by_cases hx' : x = '\''
            · subst hx'
              simp only [dbl, if_true, List.cons_append, lexFrom, goOn] at h
              have hb := (first_str .mysql _ ls _ _).2.1 h
              have hu' : (unescape '\'').length = 1 := rfl
              simp only [List.length_append, List.length_reverse, List.length_cons, weight_append, weight_dbl,
                weight, if_true, hu'] at hb
              omega
            · simp only [dbl, if_neg hx', List.cons_append, lexFrom, goOn] at h
              have hb := (first_str .mysql _ ls _ _).1 h
              simp only [List.length_append, List.length_reverse, List.length_cons, weight_append, weight_dbl,
                weight, if_true, hu] at hb
              omega
      · simp only [dbl, if_neg hc, List.cons_append, lexFrom, goOn, true_and, if_neg hb] at h
        exact wild_cons hb (mysql_loses n s (c :: acc) ls (by omega) (by simpa using h))

/-- **C49 (MySQL strings, exactly).**  A string literal is read back as the string exactly if every
backslash in it stands before `%` or `_`; otherwise the text does not even begin with that string. -/
theorem C49_mysql_exact (v : Str) :
    ∃ t, scalarToSql (.utf8 (some v)) = some t ∧
      (Lexes .mysql t [.str v] ↔ WildcardsOnly v) ∧
      ((∃ ls, lex .mysql t = some (.str v :: ls)) ↔ WildcardsOnly v) := by
  refine ⟨_, rfl, ?_⟩
  have hb : beginLex .mysql '\'' = (some (.str []), []) := rfl
  have hl : WildcardsOnly v → Lexes .mysql ('\'' :: dbl '\'' v ++ ['\'']) [.str v] := by
    intro h rest hr
    have e : ('\'' :: dbl '\'' v ++ ['\'']) ++ rest = '\'' :: (dbl '\'' v ++ '\'' :: rest) := by simp
    rw [e]
    simp only [lexFrom, goOn, flush, hb]
    rw [mysql_reads v.length v [] rest (Nat.le_refl _) h, (ends_str .mysql _).run rest hr]
    simp [Function.comp_def]
  have hr : (∃ ls, lex .mysql ('\'' :: dbl '\'' v ++ ['\'']) = some (.str v :: ls)) → WildcardsOnly v := by
    rintro ⟨ls, h⟩
    simp only [lex, List.cons_append, lexFrom, goOn, flush, hb, List.nil_append] at h
    exact mysql_loses v.length v [] ls (Nat.le_refl _) (by simpa using h)
  exact ⟨⟨fun h => hr ⟨[], h.lex⟩, hl⟩, ⟨hr, fun h => ⟨[], (hl h).lex⟩⟩⟩

/-- Both kinds. -/
example : WildcardsOnly "50\\% it's".toList ∧ ¬ WildcardsOnly "C:\\temp".toList := by
  constructor
  · intro p q e
    have hlen := congrArg List.length e
    have e' : ['5', '0', '\\', '%', ' ', 'i', 't', '\'', 's'] = p ++ '\\' :: q := e
    match p, e' with
    | [_, _], e' => simp at e'; exact ⟨_, _, e'.2.2.symm, Or.inl rfl⟩
    | [], e' => simp at e'
    | [_], e' => simp at e'
    | [_, _, _], e' => simp at e'
    | [_, _, _, _], e' => simp at e'
    | [_, _, _, _, _], e' => simp at e'
    | [_, _, _, _, _, _], e' => simp at e'
    | [_, _, _, _, _, _, _], e' => simp at e'
    | [_, _, _, _, _, _, _, _], e' => simp at e'
    | _ :: _ :: _ :: _ :: _ :: _ :: _ :: _ :: _ :: _, e' => simp at e'
  · intro h
    obtain ⟨c, r, e, hc⟩ := h "C:".toList "temp".toList (by decide)
    have e' : ['t', 'e', 'm', 'p'] = c :: r := e
    simp only [List.cons.injEq] at e'
    rw [← e'.1] at hc
    revert hc
    decide

/-- **C49 is violated for MySQL by any SQL one likes**: whatever text without quotes is put behind a
backslash and a quote and before a `#` is read as SQL. -/
theorem C49_violated_injection (p : Str) (ls : List Lexeme) (hp : '\'' ∉ p) (hl : Lexes .mysql p ls) :
    ∃ t, scalarToSql (.utf8 (some ('\\' :: '\'' :: ' ' :: p ++ [' ', '#']))) = some t ∧
      lex .mysql t = some (.str ['\''] :: ls) := by
  refine ⟨_, rfl, ?_⟩
  have hd : dbl '\'' ('\\' :: '\'' :: ' ' :: p ++ [' ', '#']) = '\\' :: '\'' :: '\'' :: ' ' :: (p ++ [' ', '#']) := by
    have h0 : dbl '\'' (p ++ [' ', '#']) = p ++ [' ', '#'] := dbl_none _ _ (by simp [hp])
    have h1 : ('\\' : Char) ≠ '\'' := by decide
    have h2 : (' ' : Char) ≠ '\'' := by decide
    simp only [List.cons_append, dbl, if_neg h1, if_neg h2, if_true, h0]
  rw [hd]
  have e : '\'' :: ('\\' :: '\'' :: '\'' :: ' ' :: (p ++ [' ', '#'])) ++ ['\''] =
      '\'' :: '\\' :: '\'' :: '\'' :: ' ' :: (p ++ (' ' :: '#' :: ['\''])) := by simp
  rw [e]
  have hb : beginLex .mysql '\'' = (some (.str []), []) := rfl
  have hs : lexFrom .mysql (.strQ ['\'']) (' ' :: (p ++ (' ' :: '#' :: ['\'']))) =
      (lexFrom .mysql .start (' ' :: (p ++ (' ' :: '#' :: ['\''])))).map ([.str ['\'']] ++ ·) := 
    (ends_str .mysql ['\'']).run _ (term_space _)
  have hgo : lex .mysql ('\'' :: '\\' :: '\'' :: '\'' :: ' ' :: (p ++ (' ' :: '#' :: ['\'']))) =
      lexFrom .mysql (.strQ ['\'']) (' ' :: (p ++ (' ' :: '#' :: ['\'']))) := by
    have g1 : goOn .mysql (.str []) '\\' = some (.esc []) := rfl
    have g2 : goOn .mysql (.esc []) '\'' = some (.str ['\'']) := rfl
    have g3 : goOn .mysql (.str ['\'']) '\'' = some (.strQ ['\'']) := rfl
    have g0 : goOn .mysql .start '\'' = none := rfl
    rw [lex, lexFrom, g0]
    simp only [flush, hb, List.nil_append]
    rw [lexFrom, g1]
    simp only
    rw [lexFrom, g2]
    simp only
    rw [lexFrom, g3]
    simp
  rw [hgo, hs, lex_space, hl _ (term_space _)]
  have : lexFrom .mysql .start (' ' :: '#' :: ['\'']) = some [] := by rfl
  rw [this]
  simp

/-- A case: the condition is made true for all rows. -/
example : '\'' ∉ "OR TRUE".toList ∧
    Lexes .mysql "OR TRUE".toList [.word "OR".toList, .word "TRUE".toList] :=
  ⟨by decide, (lexes_plain .mysql "OR".toList (by decide)).space (lexes_plain .mysql "TRUE".toList (by decide))⟩

end Seafowl.Remote
