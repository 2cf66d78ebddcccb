/-
C49: literals and identifiers cannot break out of their quotes.
-/
import Verif.Remote.Quote

set_option linter.unusedSimpArgs false

namespace Seafowl.Remote

/-- Text that is read as the lexemes, whatever comes after it, provided that begins with a space, a
closing parenthesis or a comma. -/
def Term (rest : Str) : Prop :=
  rest = [] ∨ ∃ c r, rest = c :: r ∧ (c = ' ' ∨ c = ')' ∨ c = ',')

def Lexes (d : Dialect) (s : Str) (ls : List Lexeme) : Prop :=
  ∀ rest, Term rest → lexFrom d .start (s ++ rest) = (lexFrom d .start rest).map (ls ++ ·)

theorem Lexes.lex {d : Dialect} {s : Str} {ls : List Lexeme} (h : Lexes d s ls) :
    lex d s = some ls := by
  have := h [] (Or.inl rfl)
  simpa [Remote.lex, lexFrom, flush] using this

/-! ### The end of a lexeme -/

/-- A state that a terminator ends. -/
def Ends (d : Dialect) (st : LexSt) (l : Lexeme) : Prop :=
  flush d st = some [l] ∧ ∀ c, (c = ' ' ∨ c = ')' ∨ c = ',') → goOn d st c = none

theorem Ends.run {d : Dialect} {st : LexSt} {l : Lexeme} (h : Ends d st l) (rest : Str)
    (hr : Term rest) : lexFrom d st rest = (lexFrom d .start rest).map ([l] ++ ·) := by
  rcases hr with rfl | ⟨c, r, rfl, hc⟩
  · show flush d st = (flush d .start).map _
    rw [h.1]
    rfl
  · have h1 : goOn d st c = none := h.2 c hc
    have h2 : goOn d .start c = none := rfl
    have hb : ∃ out, beginLex d c = (some .start, out) := by
      rcases hc with rfl | rfl | rfl <;> cases d <;> exact ⟨_, rfl⟩
    obtain ⟨out, hb⟩ := hb
    simp only [lexFrom, h1, h2, hb, h.1]
    simp only [flush, List.nil_append, Option.map_map]
    rfl

theorem ends_word (d : Dialect) (acc : Str) : Ends d (.word acc) (.word acc.reverse) := by
  refine ⟨rfl, ?_⟩
  rintro c (rfl | rfl | rfl) <;> rfl

theorem ends_sym (d : Dialect) (acc : Str) : Ends d (.sym acc) (.sym acc.reverse) := by
  refine ⟨rfl, ?_⟩
  rintro c (rfl | rfl | rfl) <;> rfl

theorem ends_num (d : Dialect) (n : Nat) : Ends d (.num n) (.num n) := by
  refine ⟨rfl, ?_⟩
  rintro c (rfl | rfl | rfl) <;> rfl

theorem ends_str (d : Dialect) (acc : Str) : Ends d (.strQ acc) (.str acc.reverse) := by
  refine ⟨rfl, ?_⟩
  rintro c (rfl | rfl | rfl) <;> rfl

theorem ends_ident (d : Dialect) (acc : Str) (h : d = .postgres → acc ≠ []) :
    Ends d (.idQ acc) (.ident acc.reverse) := by
  refine ⟨?_, ?_⟩
  · simp only [flush]
    rw [if_neg]
    rintro ⟨h1, h2⟩
    exact h h1 h2
  · rintro c (rfl | rfl | rfl) <;> cases d <;> rfl

/-! ### Strings and identifiers -/

theorem lex_str (d : Dialect) : ∀ (s acc rest : Str), (d = .mysql → '\\' ∉ s) →
    lexFrom d (.str acc) (dbl '\'' s ++ '\'' :: rest) = lexFrom d (.strQ (s.reverse ++ acc)) rest
  | [], acc, rest, _ => by simp [dbl, lexFrom, goOn]
  | c :: s, acc, rest, h => by
    have hs : d = .mysql → '\\' ∉ s := fun hd hm => h hd (by simp [hm])
    by_cases hc : c = '\''
    · subst hc
      simp only [dbl, if_true, List.cons_append, lexFrom, goOn]
      rw [lex_str d s _ rest hs]
      simp
    · have hb : ¬ (d = .mysql ∧ c = '\\') := by
        rintro ⟨h1, rfl⟩
        exact h h1 (by simp)
      simp only [dbl, if_neg hc, List.cons_append, lexFrom, goOn, if_neg hb]
      rw [lex_str d s _ rest hs]
      simp

theorem lex_id (d : Dialect) : ∀ (s acc rest : Str),
    lexFrom d (.id acc) (dbl (identQuote d) s ++ identQuote d :: rest) =
      lexFrom d (.idQ (s.reverse ++ acc)) rest
  | [], acc, rest => by simp [dbl, lexFrom, goOn]
  | c :: s, acc, rest => by
    by_cases hc : c = identQuote d
    · subst hc
      simp only [dbl, if_true, List.cons_append, lexFrom, goOn]
      rw [lex_id d s _ rest]
      simp
    · simp only [dbl, if_neg hc, List.cons_append, lexFrom, goOn]
      rw [lex_id d s _ rest]
      simp

/-- **C49 (strings).** A string literal is read back as the string, by PostgreSQL and SQLite always,
by MySQL if it has no backslash, whatever other characters it has. -/
theorem C49_string_partial (d : Dialect) (v : Str) (h : d = .mysql → '\\' ∉ v) :
    ∃ t, scalarToSql (.utf8 (some v)) = some t ∧ Lexes d t [.str v] := by
  refine ⟨_, rfl, ?_⟩
  intro rest hr
  have e : ('\'' :: dbl '\'' v ++ ['\'']) ++ rest = '\'' :: (dbl '\'' v ++ '\'' :: rest) := by simp
  rw [e]
  have hb : beginLex d '\'' = (some (.str []), []) := by cases d <;> rfl
  simp only [lexFrom, goOn, flush, hb]
  rw [lex_str d v [] rest h, (ends_str d _).run rest hr]
  simp [Function.comp_def]

/-- **C49 (identifiers).** A column name is read back as the name by all three kinds of database
(PostgreSQL has no columns with an empty name). -/
theorem C49_identifier (d : Dialect) (name : Str) (h : d = .postgres → name ≠ []) :
    Lexes d (colToSql d name) [.ident name] := by
  intro rest hr
  have e : colToSql d name ++ rest =
      identQuote d :: (dbl (identQuote d) name ++ identQuote d :: rest) := by
    cases d <;> simp [colToSql, quoteDouble, quoteBackticks, identQuote]
  rw [e]
  have hb : beginLex d (identQuote d) = (some (.id []), []) := by cases d <;> rfl
  simp only [lexFrom, goOn, flush, hb]
  rw [lex_id d name [] rest, (ends_ident d _ ?_).run rest hr]
  · simp [Function.comp_def]
  · intro hd; simpa using h hd

/-! ### Words, symbols and numbers -/

theorem lex_word (d : Dialect) : ∀ (w acc rest : Str), (∀ c ∈ w, (isLet c || isDig c) = true) →
    lexFrom d (.word acc) (w ++ rest) = lexFrom d (.word (w.reverse ++ acc)) rest
  | [], acc, rest, _ => by simp
  | c :: w, acc, rest, h => by
    have hc := h c (by simp)
    simp only [List.cons_append, lexFrom, goOn, hc, if_true]
    rw [lex_word d w _ rest (fun x hx => h x (by simp [hx]))]
    simp

theorem lex_sym (d : Dialect) : ∀ (w acc rest : Str), (∀ c ∈ w, isSymC c = true) →
    lexFrom d (.sym acc) (w ++ rest) = lexFrom d (.sym (w.reverse ++ acc)) rest
  | [], acc, rest, _ => by simp
  | c :: w, acc, rest, h => by
    have hc := h c (by simp)
    simp only [List.cons_append, lexFrom, goOn, hc, if_true]
    rw [lex_sym d w _ rest (fun x hx => h x (by simp [hx]))]
    simp

/-- The value of decimal digits after `acc`. -/
def undec (acc : Nat) (s : Str) : Nat := s.foldl (fun a c => a * 10 + digVal c) acc

theorem lex_num (d : Dialect) : ∀ (w : Str) (acc : Nat) (rest : Str), (∀ c ∈ w, isDig c = true) →
    lexFrom d (.num acc) (w ++ rest) = lexFrom d (.num (undec acc w)) rest
  | [], acc, rest, _ => by simp [undec]
  | c :: w, acc, rest, h => by
    have hc := h c (by simp)
    simp only [List.cons_append, lexFrom, goOn, hc, if_true]
    rw [lex_num d w _ rest (fun x hx => h x (by simp [hx]))]
    simp [undec]

theorem digit_toNat (k : Nat) (h : k < 10) : (Char.ofNat (48 + k)).toNat = 48 + k := by
  have : k = 0 ∨ k = 1 ∨ k = 2 ∨ k = 3 ∨ k = 4 ∨ k = 5 ∨ k = 6 ∨ k = 7 ∨ k = 8 ∨ k = 9 := by omega
  rcases this with rfl | rfl | rfl | rfl | rfl | rfl | rfl | rfl | rfl | rfl <;> rfl

theorem digVal_digit (k : Nat) (h : k < 10) : digVal (Char.ofNat (48 + k)) = k := by
  unfold digVal
  rw [digit_toNat k h]
  omega

theorem isDig_digit (k : Nat) (h : k < 10) : isDig (Char.ofNat (48 + k)) = true := by
  simp only [isDig, digit_toNat k h, decide_eq_true_eq]
  omega

theorem dec_digits (n : Nat) : ∀ c ∈ dec n, isDig c = true := by
  induction n using Nat.strongRecOn with
  | _ n ih =>
    intro c hc
    unfold dec at hc
    split at hc
    · rename_i h
      simp only [List.mem_singleton] at hc
      subst hc
      exact isDig_digit n h
    · rename_i h
      rcases List.mem_append.1 hc with hc | hc
      · exact ih (n / 10) (by omega) c hc
      · simp only [List.mem_singleton] at hc
        subst hc
        exact isDig_digit _ (by omega)

theorem undec_append (s : Str) : ∀ (acc : Nat) (t : Str), undec acc (s ++ t) = undec (undec acc s) t := by
  intro acc t
  simp [undec]

theorem undec_dec (n : Nat) : undec 0 (dec n) = n := by
  induction n using Nat.strongRecOn with
  | _ n ih =>
    unfold dec
    split
    · rename_i h
      simp [undec, digVal_digit n h]
    · rename_i h
      rw [undec_append, ih (n / 10) (by omega)]
      simp only [undec, List.foldl_cons, List.foldl_nil, digVal_digit (n % 10) (by omega)]
      omega

theorem dec_ne_nil (n : Nat) : dec n ≠ [] := by
  unfold dec; split <;> simp

theorem begin_dig (d : Dialect) (c : Char) (h : isDig c = true) :
    beginLex d c = (some (.num (digVal c)), []) := by
  have hne : ∀ x : Char, isDig x = false → c ≠ x := by
    rintro x hx rfl; rw [h] at hx; simp at hx
  unfold beginLex
  rw [if_neg (hne _ (by decide)), if_neg (hne _ (by decide)),
    if_neg (hne _ (by cases d <;> decide)), if_neg, if_pos h]
  rintro (h | h | h)
  · exact hne _ (by decide) h
  · exact hne _ (by decide) h
  · exact hne _ (by decide) h

theorem lexes_nat (d : Dialect) (n : Nat) : Lexes d (dec n) [.num n] := by
  intro rest hr
  have hd := dec_digits n
  have hu := undec_dec n
  cases hw : dec n with
  | nil => exact absurd hw (dec_ne_nil n)
  | cons c w =>
    rw [hw] at hd hu
    have hc := hd c (by simp)
    simp only [List.cons_append, lexFrom, goOn, flush, begin_dig d c hc]
    rw [lex_num d w _ rest (fun x hx => hd x (by simp [hx]))]
    simp only [undec, List.foldl_cons, Nat.zero_mul, Nat.zero_add] at hu
    change undec _ w = n at hu
    rw [hu, (ends_num d n).run rest hr]
    simp [Function.comp_def]

/-- A word or a run of operator characters. -/
def wordLex (w : Str) : Lexeme :=
  match w with
  | c :: _ => if isLet c then .word w else .sym w
  | [] => .word w

/-- Spelled with letters, or with operator characters. -/
def Plain (w : Str) : Bool :=
  !w.isEmpty && (w.all isLet || w.all isSymC)

theorem begin_let (d : Dialect) (c : Char) (h : isLet c = true) :
    beginLex d c = (some (.word [c]), []) := by
  have hne : ∀ x : Char, isLet x = false → c ≠ x := by
    rintro x hx rfl; rw [h] at hx; simp at hx
  have hdig : isDig c = false := by
    cases hd : isDig c with
    | false => rfl
    | true =>
      simp only [isDig, decide_eq_true_eq] at hd
      simp only [isLet, Bool.or_eq_true, decide_eq_true_eq, beq_iff_eq] at h
      rcases h with (h | h) | h
      · omega
      · omega
      · subst h; simp at hd
  unfold beginLex
  rw [if_neg (hne _ (by decide)), if_neg (hne _ (by decide)),
    if_neg (hne _ (by cases d <;> decide)), if_neg, if_neg (by simp [hdig]), if_pos h]
  rintro (h | h | h)
  · exact hne _ (by decide) h
  · exact hne _ (by decide) h
  · exact hne _ (by decide) h

theorem begin_sym (d : Dialect) (c : Char) (h : isSymC c = true) :
    beginLex d c = (some (.sym [c]), []) ∧ isLet c = false := by
  simp only [isSymC, List.contains_iff_mem] at h
  have : c ∈ ['+', '-', '*', '/', '<', '>', '=', '~', '!', '%', '^', '&', '|'] := h
  simp only [List.mem_cons, List.not_mem_nil, or_false] at this
  rcases this with rfl | rfl | rfl | rfl | rfl | rfl | rfl | rfl | rfl | rfl | rfl | rfl | rfl <;>
    cases d <;> exact ⟨by rfl, by rfl⟩

theorem lexes_plain (d : Dialect) (w : Str) (h : Plain w = true) : Lexes d w [wordLex w] := by
  intro rest hr
  unfold Plain at h
  cases w with
  | nil => simp at h
  | cons c w =>
    simp only [List.isEmpty_cons, Bool.not_false, Bool.true_and, Bool.or_eq_true] at h
    rcases h with h | h
    · have hall := List.all_eq_true.1 h
      have hc := hall c (by simp)
      simp only [List.cons_append, lexFrom, goOn, flush, begin_let d c hc]
      rw [lex_word d w _ rest (fun x hx => by simp [hall x (by simp [hx])]), (ends_word d _).run rest hr]
      simp [wordLex, hc, Function.comp_def]
    · have hall := List.all_eq_true.1 h
      have hc := hall c (by simp)
      obtain ⟨hb, hl⟩ := begin_sym d c hc
      simp only [List.cons_append, lexFrom, goOn, flush, hb]
      rw [lex_sym d w _ rest (fun x hx => hall x (by simp [hx])), (ends_sym d _).run rest hr]
      simp [wordLex, hl, Function.comp_def]

/-! ### Putting text together -/

theorem lex_space (d : Dialect) (s : Str) : lexFrom d .start (' ' :: s) = lexFrom d .start s := by
  have hb : beginLex d ' ' = (some .start, []) := by cases d <;> rfl
  simp [lexFrom, goOn, flush, hb]

theorem lex_open (d : Dialect) (s : Str) :
    lexFrom d .start ('(' :: s) = (lexFrom d .start s).map (.sym ['('] :: ·) := by
  have hb : beginLex d '(' = (some .start, [.sym ['(']]) := by cases d <;> rfl
  simp [lexFrom, goOn, flush, hb]

theorem lex_close (d : Dialect) (s : Str) :
    lexFrom d .start (')' :: s) = (lexFrom d .start s).map (.sym [')'] :: ·) := by
  have hb : beginLex d ')' = (some .start, [.sym [')']]) := by cases d <;> rfl
  simp [lexFrom, goOn, flush, hb]

theorem lex_comma (d : Dialect) (s : Str) :
    lexFrom d .start (',' :: s) = (lexFrom d .start s).map (.sym [','] :: ·) := by
  have hb : beginLex d ',' = (some .start, [.sym [',']]) := by cases d <;> rfl
  simp [lexFrom, goOn, flush, hb]

theorem term_space (s : Str) : Term (' ' :: s) := Or.inr ⟨_, _, rfl, Or.inl rfl⟩
theorem term_close (s : Str) : Term (')' :: s) := Or.inr ⟨_, _, rfl, Or.inr (Or.inl rfl)⟩
theorem term_comma (s : Str) : Term (',' :: s) := Or.inr ⟨_, _, rfl, Or.inr (Or.inr rfl)⟩

theorem Lexes.space {d : Dialect} {s t : Str} {ls lt : List Lexeme} (hs : Lexes d s ls)
    (ht : Lexes d t lt) : Lexes d (s ++ ' ' :: t) (ls ++ lt) := by
  intro rest hr
  rw [List.append_assoc, List.cons_append, hs _ (term_space _), lex_space, ht rest hr, Option.map_map]
  congr 1
  funext x
  simp

theorem Lexes.paren {d : Dialect} {s : Str} {ls : List Lexeme} (hs : Lexes d s ls) :
    Lexes d ('(' :: s ++ [')']) (.sym ['('] :: ls ++ [.sym [')']]) := by
  intro rest hr
  have e : ('(' :: s ++ [')']) ++ rest = '(' :: (s ++ ')' :: rest) := by simp
  rw [e, lex_open, hs _ (term_close _), lex_close, Option.map_map, Option.map_map]
  congr 1
  funext x
  simp

theorem Lexes.comma {d : Dialect} {s t : Str} {ls lt : List Lexeme} (hs : Lexes d s ls)
    (ht : Lexes d t lt) : Lexes d (s ++ ',' :: ' ' :: t) (ls ++ .sym [','] :: lt) := by
  intro rest hr
  have e : (s ++ ',' :: ' ' :: t) ++ rest = s ++ ',' :: (' ' :: (t ++ rest)) := by simp
  rw [e, hs _ (term_comma _), lex_comma, lex_space, ht rest hr, Option.map_map, Option.map_map]
  congr 1
  funext x
  simp

theorem Lexes.spaced {d : Dialect} {s : Str} {ls : List Lexeme} (hs : Lexes d s ls) :
    ∀ (ws : List Str), (∀ w ∈ ws, Plain w = true) →
      Lexes d (s ++ Remote.spaced ws) (ls ++ ws.map wordLex) := by
  intro ws
  induction ws generalizing s ls with
  | nil => intro _; simpa [Remote.spaced] using hs
  | cons w ws ih =>
    intro h
    have h1 := hs.space (lexes_plain d w (h w (by simp)))
    have h2 := ih h1 (fun x hx => h x (by simp [hx]))
    have e : s ++ Remote.spaced (w :: ws) = (s ++ ' ' :: w) ++ Remote.spaced ws := by
      simp [Remote.spaced]
    rw [e]
    simpa using h2

/-! ### A whole filter -/

/-- The words are those of `opToSql`. -/
theorem opWords_text (d : Dialect) (o : Op) (t : String) (h : opToSql d o = some t) :
    ' ' :: t.toList = spaced (opWords d o) := by
  have : ∀ d o, ((opToSql d o).map fun t => ' ' :: t.toList).getD (spaced (opWords d o)) =
      spaced (opWords d o) := by
    intro d o
    cases d <;> cases o <;> rfl
  have := this d o
  rw [h] at this
  simpa using this

/-- What the literal means to the remote database. -/
def litLex : Scalar → List Lexeme
  | .utf8 (some v) => [.str v]
  | .stamp (some t) => [.str t]
  | .int (some i) => if i < 0 then [.sym ['-'], .num i.natAbs] else [.num i.natAbs]
  | .bool (some b) => [.word (if b then "true".toList else "false".toList)]
  | .utf8 none | .int none | .bool none => [.word "NULL".toList]
  | .stamp none | .tz | .other _ => []

/-- The literals that are spelled properly: strings (without backslashes for MySQL), dates and
timestamps without a time zone, integers, Booleans and NULLs. -/
def LitOk (d : Dialect) : Scalar → Prop
  | .utf8 (some v) => d = .mysql → '\\' ∉ v
  | .stamp (some t) => ∀ c ∈ t, c ≠ '\'' ∧ c ≠ '\\'
  | .stamp none | .tz | .other _ => False
  | _ => True

theorem dbl_none (q : Char) : ∀ s : Str, q ∉ s → dbl q s = s
  | [], _ => rfl
  | c :: s, h => by
    have hc : c ≠ q := by rintro rfl; exact h (by simp)
    simp only [dbl, if_neg hc]
    rw [dbl_none q s (fun hm => h (by simp [hm]))]

/-- **C49 (literals).** A literal of the kinds in `LitOk` is sent and read back exactly. -/
theorem C49_literal_partial (d : Dialect) (v : Scalar) (h : LitOk d v) :
    ∃ t, scalarToSql v = some t ∧ Lexes d t (litLex v) := by
  match v, h with
  | .utf8 (some v), h => exact C49_string_partial d v h
  | .utf8 none, _ => exact ⟨_, rfl, lexes_plain d _ (by decide)⟩
  | .int none, _ => exact ⟨_, rfl, lexes_plain d _ (by decide)⟩
  | .bool none, _ => exact ⟨_, rfl, lexes_plain d _ (by decide)⟩
  | .bool (some true), _ => exact ⟨_, rfl, lexes_plain d _ (by decide)⟩
  | .bool (some false), _ => exact ⟨_, rfl, lexes_plain d _ (by decide)⟩
  | .stamp (some t), h =>
    refine ⟨_, rfl, ?_⟩
    have hq : dbl '\'' t = t := dbl_none _ _ (fun hm => (h _ hm).1 rfl)
    obtain ⟨t', h1, h2⟩ := C49_string_partial d t (fun _ hm => (h _ hm).2 rfl)
    simp only [scalarToSql, hq, Option.some.injEq] at h1
    subst h1
    exact h2
  | .int (some i), _ =>
    refine ⟨_, rfl, ?_⟩
    unfold decInt
    by_cases hi : i < 0
    · have el : litLex (.int (some i)) = [.sym ['-'], .num i.natAbs] := by simp [litLex, hi]
      rw [if_pos hi, el]
      intro rest hr
      have hb := (begin_sym d '-' (by decide)).1
      have hn := lexes_nat d i.natAbs rest hr
      -- the digits begin a new lexeme
      have hd := dec_digits i.natAbs
      cases hw : dec i.natAbs with
      | nil => exact absurd hw (dec_ne_nil _)
      | cons c w =>
        rw [hw] at hn hd
        have hc := hd c (by simp)
        have hs : isSymC c = false := by
          cases hsy : isSymC c with
          | false => rfl
          | true =>
            have h1 := (begin_sym d c hsy).1
            rw [begin_dig d c hc] at h1
            simp at h1
        simp only [List.cons_append, lexFrom, goOn, flush, begin_dig d c hc] at hn
        simp only [List.cons_append, lexFrom, goOn, flush, hb, hs, begin_dig d c hc]
        simp only [Bool.false_eq_true, if_false, List.append_nil, List.nil_append] at hn ⊢
        cases hE : lexFrom d (LexSt.num (digVal c)) (w ++ rest) with
        | none =>
          rw [hE] at hn
          cases hE2 : lexFrom d .start rest with
          | none => rfl
          | some x => rw [hE2] at hn; simp at hn
        | some y =>
          rw [hE] at hn
          cases hE2 : lexFrom d .start rest with
          | none => rw [hE2] at hn; simp at hn
          | some x =>
            rw [hE2] at hn
            simp only [Option.map_some, Option.some.injEq] at hn ⊢
            simp [hn]
    · have el : litLex (.int (some i)) = [.num i.natAbs] := by simp [litLex, hi]
      rw [if_neg hi, el]
      exact lexes_nat d i.natAbs

/-- The tests of SQL, as words. -/
def isLex : IsKind → List Lexeme
  | .null => [.word ['I', 'S'], .word ['N', 'U', 'L', 'L']]
  | .notNull => [.word ['I', 'S'], .word ['N', 'O', 'T'], .word ['N', 'U', 'L', 'L']]
  | .true => [.word ['I', 'S'], .word ['T', 'R', 'U', 'E']]
  | .false => [.word ['I', 'S'], .word ['F', 'A', 'L', 'S', 'E']]
  | .notTrue => [.word ['I', 'S'], .word ['N', 'O', 'T'], .word ['T', 'R', 'U', 'E']]
  | .notFalse => [.word ['I', 'S'], .word ['N', 'O', 'T'], .word ['F', 'A', 'L', 'S', 'E']]

mutual
/-- What the filter says, lexeme by lexeme. -/
def meant (d : Dialect) (val : Nat → Scalar) : Expr → List Lexeme
  | .atom (.col n) => [.ident n.toList]
  | .atom (.lit n) => litLex (val n)
  | .atom (.tzTimestamp _) => []
  | .bin o a b => inParens (parens o a) (meant d val a) ++ (opWords d o).map wordLex ++
      inParens (parens o b) (meant d val b)
  | .not a => .word "NOT".toList :: meant d val a
  | .neg a => .sym ['('] :: .sym ['-'] :: meant d val a ++ [.sym [')']]
  | .is k a => meant d val a ++ isLex k
  | .inList a xs n => meant d val a ++
      (if n then [.word "NOT".toList, .word "IN".toList] else [.word "IN".toList]) ++
      .sym ['('] :: commas (meantAll d val xs) ++ [.sym [')']]
  | .unsupported _ => []

def meantAll (d : Dialect) (val : Nat → Scalar) : Exprs → List (List Lexeme)
  | .nil => []
  | .cons x xs => meant d val x :: meantAll d val xs

def inParens (b : Bool) (l : List Lexeme) : List Lexeme :=
  if b then .sym ['('] :: l ++ [.sym [')']] else l

def commas : List (List Lexeme) → List Lexeme
  | [] => []
  | [l] => l
  | l :: l' :: ls => l ++ .sym [','] :: commas (l' :: ls)
end

mutual
/-- All literals are of the proper kinds, all columns have a name, and everything is supported. -/
def WellLit (d : Dialect) (val : Nat → Scalar) : Expr → Prop
  | .atom (.col n) => d = .postgres → n.toList ≠ []
  | .atom (.lit n) => LitOk d (val n)
  | .atom (.tzTimestamp _) => False
  | .bin o a b => (opToSql d o).isSome = true ∧ WellLit d val a ∧ WellLit d val b
  | .not a => WellLit d val a
  | .neg a => WellLit d val a
  | .is _ a => WellLit d val a
  | .inList a xs _ => WellLit d val a ∧ WellLitAll d val xs
  | .unsupported _ => False

def WellLitAll (d : Dialect) (val : Nat → Scalar) : Exprs → Prop
  | .nil => True
  | .cons x xs => WellLit d val x ∧ WellLitAll d val xs
end

theorem lexes_nil (d : Dialect) : Lexes d [] [] := by
  intro rest _
  cases h : lexFrom d .start rest <;> simp [h]

theorem lexes_wrap {d : Dialect} {s : Str} {ls : List Lexeme} (b : Bool) (h : Lexes d s ls) :
    Lexes d (wrapStr b s) (inParens b ls) := by
  cases b
  · simpa [wrapStr, inParens] using h
  · simpa [wrapStr, inParens] using h.paren

theorem opWords_plain (d : Dialect) (o : Op) (h : (opToSql d o).isSome = true) :
    ∀ w ∈ opWords d o, Plain w = true := by
  have : (opWords d o).all Plain = true := by
    cases d <;> cases o <;> first | rfl | (simp [opToSql] at h)
  exact fun w hw => List.all_eq_true.1 this w hw

theorem lexes_join (d : Dialect) : ∀ (ss : List Str) (lls : List (List Lexeme)),
    ss.length = lls.length → (∀ (i : Nat) s l, ss[i]? = some s → lls[i]? = some l → Lexes d s l) →
    Lexes d (joinStr ss) (commas lls)
  | [], [], _, _ => by simpa [joinStr, commas] using lexes_nil d
  | [s], [l], _, h => by simpa [joinStr, commas] using h 0 s l rfl rfl
  | s :: t :: ss, l :: m :: ls, hlen, h => by
    have h1 := h 0 s l rfl rfl
    have h2 := lexes_join d (t :: ss) (m :: ls) (by simpa using hlen)
      (fun i x y hx hy => h (i + 1) x y (by simpa using hx) (by simpa using hy))
    simpa [joinStr, commas] using h1.comma h2
  | [], _ :: _, hlen, _ => by simp at hlen
  | _ :: _, [], hlen, _ => by simp at hlen
  | [_], _ :: _ :: _, hlen, _ => by simp at hlen
  | _ :: _ :: _, [_], hlen, _ => by simp at hlen

mutual
theorem text_lexes (d : Dialect) (val : Nat → Scalar) : ∀ e, WellLit d val e →
    Lexes d (text d val e) (meant d val e)
  | .atom (.col n), h => by
    simp only [text, meant]
    exact C49_identifier d _ h
  | .atom (.lit n), h => by
    obtain ⟨t, h1, h2⟩ := C49_literal_partial d (val n) h
    simpa [text, meant, h1] using h2
  | .atom (.tzTimestamp _), h => by simp [WellLit] at h
  | .bin o a b, h => by
    simp only [WellLit] at h
    obtain ⟨ho, ha, hb⟩ := h
    have h1 := lexes_wrap (parens o a) (text_lexes d val a ha)
    have h2 := lexes_wrap (parens o b) (text_lexes d val b hb)
    simpa [text, meant] using (h1.spaced (opWords d o) (opWords_plain d o ho)).space h2
  | .not a, h => by
    simp only [WellLit] at h
    have h1 := lexes_plain d "NOT".toList (by decide)
    simpa [text, meant, wordLex, isLet] using h1.space (text_lexes d val a h)
  | .neg a, h => by
    simp only [WellLit] at h
    have h1 := lexes_plain d "-".toList (by decide)
    have e : wordLex "-".toList = .sym ['-'] := by decide
    rw [e] at h1
    simpa [text, meant] using (h1.space (text_lexes d val a h)).paren
  | .is k a, h => by
    simp only [WellLit] at h
    have hp : ∀ w ∈ k.text, Plain w = true := by cases k <;> decide
    have h1 := (text_lexes d val a h).spaced k.text hp
    have e : k.text.map wordLex = isLex k := by cases k <;> decide
    rw [e] at h1
    simpa [text, meant] using h1
  | .inList a xs n, h => by
    simp only [WellLit] at h
    have h1 := text_lexes d val a h.1
    have hl := textAll_lexes d val xs h.2
    cases n with
    | true =>
      have h2 := h1.spaced ["NOT".toList, "IN".toList] (by decide)
      have e : ["NOT".toList, "IN".toList].map wordLex =
        [Lexeme.word "NOT".toList, Lexeme.word "IN".toList] := by decide
      rw [e] at h2
      simpa [text, meant] using h2.space hl.paren
    | false =>
      have h2 := h1.spaced ["IN".toList] (by decide)
      have e : ["IN".toList].map wordLex = [Lexeme.word "IN".toList] := by decide
      rw [e] at h2
      simpa [text, meant] using h2.space hl.paren
  | .unsupported _, h => by simp [WellLit] at h

theorem textAll_lexes (d : Dialect) (val : Nat → Scalar) : ∀ xs, WellLitAll d val xs →
    Lexes d (joinStr (textAll d val xs)) (commas (meantAll d val xs))
  | .nil, _ => by simpa [textAll, meantAll, joinStr, commas] using lexes_nil d
  | .cons x .nil, h => by
    simp only [WellLitAll] at h
    simpa [textAll, meantAll, joinStr, commas] using text_lexes d val x h.1
  | .cons x (.cons y ys), h => by
    simp only [WellLitAll] at h
    have h1 := text_lexes d val x h.1
    have h2 := textAll_lexes d val (.cons y ys) (by simpa only [WellLitAll] using h.2)
    simp only [textAll, meantAll] at h2
    simpa [textAll, meantAll, joinStr, commas] using h1.comma h2
end

/-- **C49 (filters).** The text of a whole filter is read, lexeme by lexeme, as what was meant: every
literal and every column name is one lexeme with exactly its value, and nothing in them is taken
for SQL. -/
theorem C49_filter_partial (d : Dialect) (val : Nat → Scalar) (e : Expr) (h : WellLit d val e) :
    lex d (text d val e) = some (meant d val e) := (text_lexes d val e h).lex

/-- **C49 (column list).** The list of columns of a scan is read as exactly those names. -/
theorem C49_columns (d : Dialect) (names : List Str) (h : d = .postgres → ∀ n ∈ names, n ≠ []) :
    lex d (columnList d names) = some (commas (names.map (fun n => [.ident n]))) := by
  refine Lexes.lex (lexes_join d _ _ (by simp) ?_)
  intro i s l hs hl
  rw [List.getElem?_map] at hs hl
  cases hn : names[i]? with
  | none => rw [hn] at hs; simp at hs
  | some n =>
    rw [hn] at hs hl
    simp only [Option.map_some, Option.some.injEq] at hs hl
    subst hs; subst hl
    exact C49_identifier d n (fun hd => h hd n (List.mem_of_getElem? hn))

/-- Two different filters of the proper kind are never sent as the same text, unless they say the
same. -/
theorem C49_injective_partial (d : Dialect) (val : Nat → Scalar) (e e' : Expr) (h : WellLit d val e)
    (h' : WellLit d val e') (ht : text d val e = text d val e') : meant d val e = meant d val e' := by
  have h1 := C49_filter_partial d val e h
  have h2 := C49_filter_partial d val e' h'
  rw [ht, h2] at h1
  exact (Option.some.inj h1).symm

/-- A case: a string full of quotes, a negative number, a column with quotes in its name. -/
example : WellLit .mysql (fun n => if n = 0 then .utf8 (some "it's ' OR 1=1 --".toList) else .int (some (-5)))
    (.bin .and (.bin .eq (.atom (.col "we`ird")) (.atom (.lit 0)))
      (.inList (.atom (.col "b")) (.cons (.atom (.lit 1)) .nil) true)) := by
  refine ⟨by decide, ⟨by decide, ?_, ?_⟩, ?_, ?_, trivial⟩
  · exact fun h => by cases h
  · intro _; decide
  · exact fun h => by cases h
  · trivial

/-! ### Violations -/

/-- The strings in which every backslash stands before `%` or `_`, which MySQL leaves alone. -/
inductive Kept : Str → Prop
  | nil : Kept []
  | plain {c : Char} {s : Str} : c ≠ '\\' → Kept s → Kept (c :: s)
  | wild {c : Char} {s : Str} : c = '%' ∨ c = '_' → Kept s → Kept ('\\' :: c :: s)

theorem lex_kept {v : Str} (h : Kept v) : ∀ acc rest, lexFrom .mysql (.str acc) (dbl '\'' v ++ '\'' :: rest) =
    lexFrom .mysql (.strQ (v.reverse ++ acc)) rest := by
  induction h with
  | nil => intro acc rest; simp [dbl, lexFrom, goOn]
  | @plain c s hc _ ih =>
    intro acc rest
    by_cases hq : c = '\''
    · subst hq
      simp only [dbl, if_true, List.cons_append, lexFrom, goOn]
      rw [ih]; simp
    · simp only [dbl, if_neg hq, List.cons_append, lexFrom, goOn, hc, and_false, if_false]
      rw [ih]; simp
  | @wild c s hc _ ih =>
    intro acc rest
    have e1 : ¬ ('\\' = '\'') := by decide
    have e2 : ¬ (c = '\'') := by rcases hc with rfl | rfl <;> decide
    have e3 : unescape c = [c, '\\'] := by rcases hc with rfl | rfl <;> rfl
    simp only [dbl, if_neg e1, if_neg e2, List.cons_append, lexFrom, goOn, true_and, if_true, e3]
    rw [ih]; simp

/-- A quote that a backslash has taken away from its pair: whatever is read as one string is no longer than what is left. -/
theorem lex_shifted : ∀ (v acc w : Str),
    lexFrom .mysql (.str acc) ('\'' :: (dbl '\'' v ++ ['\''])) = some [.str w] → w.length ≤ acc.length + v.length
  | [], acc, w, h => by simp [dbl, lexFrom, goOn, flush] at h
  | c :: v, acc, w, h => by
    by_cases hq : c = '\''
    · subst hq
      simp only [dbl, if_true, List.cons_append] at h
      have h1 : lexFrom .mysql (.str ('\'' :: acc)) ('\'' :: (dbl '\'' v ++ ['\''])) = some [.str w] := by
        simpa only [lexFrom, goOn, if_true] using h
      have := lex_shifted v _ w h1
      simp only [List.length_cons] at this ⊢
      omega
    · simp only [dbl, if_neg hq, List.cons_append, lexFrom, goOn, if_true, flush] at h
      rcases hb : beginLex .mysql c with ⟨st, out⟩
      rw [hb] at h
      cases st with
      | none => simp at h
      | some st =>
        simp only [Option.map_eq_some_iff] at h
        obtain ⟨r, _, hr⟩ := h
        simp only [List.cons_append, List.nil_append, List.cons.injEq, Lexeme.str.injEq] at hr
        rw [← hr.1]
        simp only [List.length_reverse]
        omega

theorem unescape_len (c : Char) : (unescape c).length = if c = '%' ∨ c = '_' then 2 else 1 := by
  unfold unescape
  repeat' split
  all_goals (first | rfl | (subst_vars; simp at *; done) | (simp_all; done))

/-- What is read as one string is no longer than the string sent, and as long only if every backslash is left alone. -/
theorem lex_shrinks : ∀ (n : Nat) (v acc w : Str), v.length ≤ n →
    lexFrom .mysql (.str acc) (dbl '\'' v ++ ['\'']) = some [.str w] →
      w.length ≤ acc.length + v.length ∧ (w.length = acc.length + v.length → Kept v)
  | _, [], acc, w, _, h => by
    simp only [dbl, List.nil_append, lexFrom, goOn, if_true, flush, Option.some.injEq, List.cons.injEq,
      Lexeme.str.injEq, and_true] at h
    subst h
    exact ⟨by simp, fun _ => .nil⟩
  | 0, c :: v, acc, w, hn, h => by simp at hn
  | n + 1, c :: v, acc, w, hn, h => by
    simp only [List.length_cons] at hn ⊢
    by_cases hq : c = '\''
    · subst hq
      simp only [dbl, if_true, List.cons_append, lexFrom, goOn] at h
      have ih := lex_shrinks n v _ w (by omega) h
      simp only [List.length_cons] at ih
      exact ⟨by omega, fun e => .plain (by decide) (ih.2 (by omega))⟩
    · by_cases hb : c = '\\'
      · subst hb
        simp only [dbl, if_neg hq, List.cons_append, lexFrom, goOn, true_and, if_true] at h
        cases v with
        | nil => simp [dbl, lexFrom, goOn, flush] at h
        | cons x v =>
          simp only [List.length_cons] at hn ⊢
          by_cases hx : x = '\''
          · subst hx
            simp only [dbl, if_true, List.cons_append] at h
            have h1 : lexFrom .mysql (.str (unescape '\'' ++ acc)) ('\'' :: (dbl '\'' v ++ ['\''])) = some [.str w] := by
              rw [lexFrom] at h
              simpa only [goOn] using h
            have := lex_shifted v _ w h1
            rw [List.length_append, unescape_len] at this
            simp only [show ¬ ('\'' = '%' ∨ '\'' = '_') by decide, if_false] at this
            exact ⟨by omega, fun e => by omega⟩
          · simp only [dbl, if_neg hx, List.cons_append, lexFrom, goOn] at h
            have ih := lex_shrinks n v _ w (by omega) h
            rw [List.length_append, unescape_len] at ih
            by_cases hw : x = '%' ∨ x = '_'
            · rw [if_pos hw] at ih
              exact ⟨by omega, fun e => .wild hw (ih.2 (by omega))⟩
            · rw [if_neg hw] at ih
              exact ⟨by omega, fun e => by omega⟩
      · simp only [dbl, if_neg hq, List.cons_append, lexFrom, goOn, hb, and_false, if_false] at h
        have ih := lex_shrinks n v _ w (by omega) h
        simp only [List.length_cons] at ih
        exact ⟨by omega, fun e => .plain hb (ih.2 (by omega))⟩

/-- **C49 (strings, exactly).** PostgreSQL and SQLite read every string literal back as the string; MySQL does so just if
every backslash in it stands before `%` or `_`. -/
theorem C49_string_exact (d : Dialect) (v : Str) :
    ∃ t, scalarToSql (.utf8 (some v)) = some t ∧ (lex d t = some [.str v] ↔ (d = .mysql → Kept v)) := by
  refine ⟨_, rfl, ?_⟩
  have hb : beginLex d '\'' = (some (.str []), []) := by cases d <;> rfl
  have e : lex d ('\'' :: dbl '\'' v ++ ['\'']) = lexFrom d (.str []) (dbl '\'' v ++ ['\'']) := by
    simp only [lex, List.cons_append, lexFrom, goOn, flush, hb]
    simp
  rw [e]
  constructor
  · rintro h rfl
    exact (lex_shrinks v.length v [] v (Nat.le_refl _) h).2 (by simp)
  · intro h
    by_cases hd : d = .mysql
    · subst hd
      rw [lex_kept (h rfl) [] []]
      simp [lexFrom, flush]
    · rw [lex_str d v [] [] (fun h => absurd h hd)]
      simp [lexFrom, flush]

example : Kept ['9', '\\', '%', '\''] :=
  .plain (by decide) (.wild (Or.inl rfl) (.plain (by decide) .nil))
example : ¬ Kept ['C', ':', '\\', 'n'] := by
  rintro (_ | ⟨_, _ | ⟨_, h | ⟨h, _⟩⟩⟩)
  · simp at *
  · simp at *

/-- **C49 is violated for MySQL**: a backslash before a quote undoes the doubling, so that the rest
of the string is taken for SQL. -/
theorem C49_violated_backslash :
    ∃ (v t : Str), scalarToSql (.utf8 (some v)) = some t ∧
      lex .mysql t = some [.str ['\''], .word "OR".toList, .num 1, .sym ['='], .num 1] :=
  ⟨"\\' OR 1=1 #".toList, _, rfl, by decide +kernel⟩

/-- **C49 is violated for MySQL, with any SQL text**: whatever has no quotes can be put into a filter by putting it into a
string between `\' ` and ` #`. -/
theorem C49_violated_inject (x : Str) (ls : List Lexeme) (hx : Lexes .mysql x ls) (hq : '\'' ∉ x) :
    ∃ t, scalarToSql (.utf8 (some ("\\' ".toList ++ x ++ " #".toList))) = some t ∧
      lex .mysql t = some (.str ['\''] :: ls) := by
  refine ⟨_, rfl, ?_⟩
  have hd : dbl '\'' ("\\' ".toList ++ x ++ " #".toList) = '\\' :: '\'' :: '\'' :: ' ' :: (x ++ [' ', '#']) := by
    have e : dbl '\'' (x ++ [' ', '#']) = x ++ [' ', '#'] := dbl_none _ _ (by simp [hq])
    show dbl '\'' ('\\' :: '\'' :: ' ' :: (x ++ [' ', '#'])) = _
    simp [dbl, e]
  have hk := hx (' ' :: '#' :: '\'' :: []) (Or.inr ⟨_, _, rfl, Or.inl rfl⟩)
  have he : lexFrom .mysql .start [' ', '#', '\''] = some [] := by decide +kernel
  rw [he] at hk
  have hs : lexFrom .mysql .start (x ++ [' ', '#', '\'']) = some ls := by simpa using hk
  rw [hd]
  have : ('\'' :: '\\' :: '\'' :: '\'' :: ' ' :: (x ++ [' ', '#'])) ++ ['\''] =
      '\'' :: '\\' :: '\'' :: '\'' :: ' ' :: (x ++ [' ', '#', '\'']) := by simp
  rw [this]
  have hb : beginLex .mysql '\'' = (some (.str []), []) := rfl
  have hb2 : beginLex .mysql ' ' = (some .start, []) := rfl
  simp [lex, lexFrom, goOn, flush, hb, hb2, unescape, hs]

example : Lexes .mysql "OR".toList [.word "OR".toList] := lexes_plain _ _ (by decide)

/-- The same with an escape sequence: the string `\n` (two characters) is read as a line break. -/
theorem C49_violated_escape :
    ∃ (v w t : Str), scalarToSql (.utf8 (some v)) = some t ∧ lex .mysql t = some [.str w] ∧ v ≠ w :=
  ⟨"\\n".toList, "\n".toList, _, rfl, by decide +kernel, by decide⟩

/-- **C49 is violated for kinds of values that fall through to `Display`**: a `Utf8View` string is
sent without quotes, in every dialect. -/
theorem C49_violated_view (d : Dialect) :
    ∃ (v t : Str), scalarToSql (.other v) = some t ∧
      lex d t = some [.num 1, .word "OR".toList, .num 1, .sym ['='], .num 1] := by
  refine ⟨"1 OR 1=1".toList, _, rfl, ?_⟩
  cases d <;> decide +kernel

/-- A decimal is sent as Rust's debug output, here of 1.23 as `DECIMAL(10, 2)`, which is not a
number. -/
theorem C49_violated_decimal (d : Dialect) :
    lex d "Some(123),10,2".toList = some [.word "Some".toList, .sym ['('], .num 123, .sym [')'],
      .sym [','], .num 10, .sym [','], .num 2] := by
  cases d <;> decide +kernel

end Seafowl.Remote
