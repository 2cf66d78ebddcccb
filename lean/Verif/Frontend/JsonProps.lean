import Verif.Frontend.Json
import Verif.Store.HttpProps

/-!
# What a client reads from an HTTP answer (C121, C122)
-/

namespace Seafowl.HttpJson

/-! ## Specification: JSON (RFC 8259) and line delimited JSON -/

/-- A JSON value.  Numbers are kept as they are written. -/
inductive J where
  | null
  | bool (b : Bool)
  | num (lit : Text)
  | str (s : Text)
  | arr (xs : List J)
  | obj (ms : List (Text × J))

namespace Parse

/-- White space between tokens. -/
def ws (c : Char) : Bool := c == ' ' || c == '\t' || c == '\n' || c == '\r'

/-- Skip white space. -/
def skip (t : Text) : Text := t.dropWhile ws

/-- Decimal digits. -/
def isDigit (c : Char) : Bool := decide (48 ≤ c.toNat ∧ c.toNat ≤ 57)

/-- Value of a hexadecimal digit. -/
def hexVal (c : Char) : Option Nat :=
  if 48 ≤ c.toNat ∧ c.toNat ≤ 57 then some (c.toNat - 48)
  else if 65 ≤ c.toNat ∧ c.toNat ≤ 70 then some (c.toNat - 55)
  else if 97 ≤ c.toNat ∧ c.toNat ≤ 102 then some (c.toNat - 87)
  else none

/-- Four hexadecimal digits. -/
def hex4 (a b c d : Char) : Option Nat :=
  match hexVal a, hexVal b, hexVal c, hexVal d with
  | some a, some b, some c, some d => some (4096 * a + 256 * b + 16 * c + d)
  | _, _, _, _ => none

/-- Escapes of one letter. -/
def short (c : Char) : Option Char :=
  if c = '"' then some '"'
  else if c = '\\' then some '\\'
  else if c = '/' then some '/'
  else if c = 'b' then some (Char.ofNat 8)
  else if c = 'f' then some (Char.ofNat 12)
  else if c = 'n' then some (Char.ofNat 10)
  else if c = 'r' then some (Char.ofNat 13)
  else if c = 't' then some (Char.ofNat 9)
  else none

/-- The rest of a string, up to the closing quote (surrogates are not accepted). -/
def strRest : Text → Option (Text × Text)
  | [] => none
  | '\\' :: 'u' :: a :: b :: c :: d :: r =>
    match hex4 a b c d, strRest r with
    | some n, some (s, r') => if 55296 ≤ n ∧ n < 57344 then none else some (Char.ofNat n :: s, r')
    | _, _ => none
  | '\\' :: c :: r =>
    match short c, strRest r with
    | some x, some (s, r') => some (x :: s, r')
    | _, _ => none
  | c :: r =>
    if c = '"' then some ([], r)
    else if c.toNat < 32 ∨ c = '\\' then none
    else
      match strRest r with
      | some (s, r') => some (c :: s, r')
      | none => none

/-- At least one digit, then `k`. -/
def some1 (t : Text) (k : Text → Bool) : Bool :=
  match t.takeWhile isDigit with
  | [] => false
  | _ => k (t.dropWhile isDigit)

/-- An optional exponent. -/
def expo : Text → Bool
  | [] => true
  | c :: r =>
    (c == 'e' || c == 'E') &&
      (match r with
       | '+' :: r' => some1 r' List.isEmpty
       | '-' :: r' => some1 r' List.isEmpty
       | r' => some1 r' List.isEmpty)

/-- An optional fraction and an optional exponent. -/
def frac : Text → Bool
  | '.' :: r => some1 r expo
  | r => expo r

/-- No leading zeros. -/
def intOk (ds : Text) : Bool := ds.head? != some '0' || ds.length == 1

/-- Digits, fraction, exponent. -/
def unsigned (t : Text) : Bool := intOk (t.takeWhile isDigit) && some1 t frac

/-- A number. -/
def number : Text → Bool
  | '-' :: r => unsigned r
  | r => unsigned r

/-- Characters of numbers. -/
def numChar (c : Char) : Bool := isDigit c || c == '+' || c == '-' || c == '.' || c == 'e' || c == 'E'

/-- A literal in front of the text. -/
def lit (w : Text) (j : J) (t : Text) : Option (J × Text) :=
  if t.take w.length = w then some (j, t.drop w.length) else none

/-- A value that is not an array, object or string. -/
def scalar (t : Text) : Option (J × Text) :=
  match lit "null".toList .null t with
  | some r => some r
  | none =>
    match lit "true".toList (.bool true) t with
    | some r => some r
    | none =>
      match lit "false".toList (.bool false) t with
      | some r => some r
      | none => if number (t.takeWhile numChar) then some (.num (t.takeWhile numChar), t.dropWhile numChar) else none

mutual
/-- A value and what follows it. -/
def value : Nat → Text → Option (J × Text)
  | 0, _ => none
  | n + 1, t =>
    match skip t with
    | [] => none
    | '"' :: r =>
      match strRest r with
      | some (s, r') => some (.str s, r')
      | none => none
    | '[' :: r =>
      match skip r with
      | ']' :: r' => some (.arr [], r')
      | _ =>
        match elems n r with
        | some (xs, r') => some (.arr xs, r')
        | none => none
    | '{' :: r =>
      match skip r with
      | '}' :: r' => some (.obj [], r')
      | _ =>
        match members n r with
        | some (ms, r') => some (.obj ms, r')
        | none => none
    | c :: r => scalar (c :: r)

/-- The elements of an array, up to the closing bracket. -/
def elems : Nat → Text → Option (List J × Text)
  | 0, _ => none
  | n + 1, t =>
    match value n t with
    | none => none
    | some (j, r) =>
      match skip r with
      | ',' :: r' =>
        match elems n r' with
        | some (js, r'') => some (j :: js, r'')
        | none => none
      | ']' :: r' => some ([j], r')
      | _ => none

/-- The members of an object, up to the closing brace. -/
def members : Nat → Text → Option (List (Text × J) × Text)
  | 0, _ => none
  | n + 1, t =>
    match skip t with
    | '"' :: r =>
      match strRest r with
      | none => none
      | some (k, r1) =>
        match skip r1 with
        | ':' :: r2 =>
          match value n r2 with
          | none => none
          | some (j, r3) =>
            match skip r3 with
            | ',' :: r4 =>
              match members n r4 with
              | some (ms, r5) => some ((k, j) :: ms, r5)
              | none => none
            | '}' :: r4 => some ([(k, j)], r4)
            | _ => none
        | _ => none
    | _ => none
end

/-- A whole text as one value. -/
def all (t : Text) : Option J :=
  match value (t.length + 1) t with
  | some (j, r) => if (skip r).isEmpty then some j else none
  | none => none

end Parse

/-- The complete lines of a text and what follows the last of them. -/
def lines : Text → List Text × Text
  | [] => ([], [])
  | c :: t =>
    if c = '\n' then ([] :: (lines t).1, (lines t).2)
    else
      match lines t with
      | ([], r) => ([], c :: r)
      | (l :: ls, r) => ((c :: l) :: ls, r)

/-- Every line a value. -/
def readAll : List Text → Option (List J)
  | [] => some []
  | l :: ls =>
    match Parse.all l, readAll ls with
    | some j, some js => some (j :: js)
    | _, _ => none

/-- Line delimited JSON: every line is a value and nothing follows the last line. -/
def readBody (t : Text) : Option (List J) := if (lines t).2.isEmpty then readAll (lines t).1 else none

/-- What a client gets for a key: the last member with the name. -/
def J.get : J → Text → Option J
  | .obj ms, k => (ms.reverse.find? (fun m => m.1 == k)).map (·.2)
  | _, _ => none

mutual
/-- The value a column value stands for in JSON. -/
def means : V → J
  | .null => .null
  | .bool b => .bool b
  | .int i => .num (intText i)
  | .float (some l) => .num l
  | .float none => .null
  | .decimal l => .num l
  | .text s => .str s
  | .list vs => .arr (meansList vs)
  | .struct fs => .obj (meansFields fs)

def meansList : List V → List J
  | [] => []
  | v :: vs => means v :: meansList vs

def meansFields : List (Text × V) → List (Text × J)
  | [] => []
  | (k, v) :: fs => (k, means v) :: meansFields fs
end

mutual
/-- The literals of fractional numbers are numbers (as the library prints them). -/
def Good : V → Prop
  | .float (some l) => Parse.number l = true ∧ l.all Parse.numChar = true
  | .decimal l => Parse.number l = true ∧ l.all Parse.numChar = true
  | .list vs => GoodList vs
  | .struct fs => GoodFields fs
  | _ => True

def GoodList : List V → Prop
  | [] => True
  | v :: vs => Good v ∧ GoodList vs

def GoodFields : List (Text × V) → Prop
  | [] => True
  | (_, v) :: fs => Good v ∧ GoodFields fs
end

/-! ## Strings -/

namespace Parse

theorem strRest_plain (c : Char) (t : Text) (h1 : c ≠ '"') (h2 : c ≠ '\\') (h3 : 32 ≤ c.toNat) :
    strRest (c :: t) = (match strRest t with | some (s, r') => some (c :: s, r') | none => none) := by
  rw [strRest.eq_def]
  split
  · simp at *
  · simp_all
  · simp_all
  · next c' r' _ _ heq =>
    injection heq with e1 e2
    subst e1 e2
    rw [if_neg h1, if_neg (by simp [h2]; omega)]

theorem strRest_short (c x : Char) (t : Text) (h : short c = some x) (hu : c ≠ 'u') :
    strRest ('\\' :: c :: t) = (match strRest t with | some (s, r') => some (x :: s, r') | none => none) := by
  rw [strRest.eq_def]
  split
  · simp at *
  · simp_all
  · next c' r' _ heq =>
    injection heq with _ e2
    injection e2 with e1 e2
    subst e1 e2
    rw [h]
    cases strRest t <;> rfl
  · next hx heq =>
    injection heq with e1 e2
    exact absurd e2.symm (hx _ _ e1.symm)

theorem hexVal_low : ∀ n < 16, hexVal (hexLow n) = some n := by decide

theorem ofNat_toNat (c : Char) : Char.ofNat c.toNat = c := by
  simp

theorem char_eq {c d : Char} (h : c.toNat = d.toNat) : c = d := by
  have := congrArg Char.ofNat h
  simpa using this

theorem strRest_esc (c : Char) (t : Text) :
    strRest (escChar c ++ t) = (match strRest t with | some (s, r') => some (c :: s, r') | none => none) := by
  unfold escChar
  split
  · next h => subst h; exact strRest_short '"' '"' t (by decide) (by decide)
  split
  · next h => subst h; exact strRest_short '\\' '\\' t (by decide) (by decide)
  split
  · next h => rw [char_eq (c := c) (d := Char.ofNat 8) h]; exact strRest_short 'b' _ t (by decide) (by decide)
  split
  · next h => rw [char_eq (c := c) (d := Char.ofNat 9) h]; exact strRest_short 't' _ t (by decide) (by decide)
  split
  · next h => rw [char_eq (c := c) (d := Char.ofNat 10) h]; exact strRest_short 'n' _ t (by decide) (by decide)
  split
  · next h => rw [char_eq (c := c) (d := Char.ofNat 12) h]; exact strRest_short 'f' _ t (by decide) (by decide)
  split
  · next h => rw [char_eq (c := c) (d := Char.ofNat 13) h]; exact strRest_short 'r' _ t (by decide) (by decide)
  split
  · next h =>
    show strRest ('\\' :: 'u' :: '0' :: '0' :: hexLow (c.toNat / 16) :: hexLow (c.toNat % 16) :: t) = _
    rw [strRest]
    have h4 : hex4 '0' '0' (hexLow (c.toNat / 16)) (hexLow (c.toNat % 16)) = some c.toNat := by
      unfold hex4
      rw [hexVal_low _ (by omega), hexVal_low _ (by omega)]
      show some (4096 * 0 + 256 * 0 + 16 * (c.toNat / 16) + c.toNat % 16) = _
      congr 1
      omega
    rw [h4]
    cases strRest t with
    | none => rfl
    | some p => simp only [ofNat_toNat]; rw [if_neg (by omega)]
  · next h1 h2 _ _ _ _ _ h3 => exact strRest_plain c t h1 h2 (by omega)

/-- Reading a string gives back the string. -/
theorem strRest_text (s r : Text) : strRest (s.flatMap escChar ++ '"' :: r) = some (s, r) := by
  induction s with
  | nil =>
    show strRest ('"' :: r) = _
    rw [strRest.eq_def]
    split
    · simp at *
    · simp_all
    · simp_all
    · next heq =>
      injection heq with e1 e2
      rw [← e1, ← e2]
      rfl
  | cons c s ih =>
    rw [List.flatMap_cons, List.append_assoc, strRest_esc, ih]

/-! ## Numbers -/

theorem digit_isDigit (n : Nat) : isDigit (digit n) = true := by
  have h : ∀ k < 10, isDigit (Char.ofNat (48 + k)) = true := by decide
  exact h _ (Nat.mod_lt _ (by omega))

theorem digits_all (n : Nat) : (digits n).all isDigit = true := by
  induction n using digits.induct with
  | case1 n h => rw [digits, if_pos h]; simp [digit_isDigit]
  | case2 n h ih => rw [digits, if_neg h]; simp [digit_isDigit, ih]

theorem digits_ne (n : Nat) : digits n ≠ [] := by
  rw [digits]
  split <;> simp

theorem digits_head (n : Nat) (h0 : 0 < n) : (digits n).head? ≠ some '0' := by
  induction n using digits.induct with
  | case1 n h =>
    rw [digits, if_pos h]
    have : ∀ k < 10, 0 < k → digit k ≠ '0' := by decide
    simpa using this n h h0
  | case2 n h ih =>
    rw [digits, if_neg h, List.head?_append]
    have := ih (by omega)
    cases hd : (digits (n / 10)).head? with
    | none => exact absurd (List.head?_eq_none_iff.1 hd) (digits_ne _)
    | some c => rw [hd] at this; simpa using this

theorem digits_intOk (n : Nat) : intOk (digits n) = true := by
  unfold intOk
  cases Nat.eq_zero_or_pos n with
  | inl h => subst h; rw [digits]; rfl
  | inr h => simp [digits_head n h]

theorem while_all {p : Char → Bool} {l : Text} (h : l.all p = true) : l.takeWhile p = l ∧ l.dropWhile p = [] := by
  induction l with
  | nil => exact ⟨rfl, rfl⟩
  | cons c t ih =>
    simp only [List.all_cons, Bool.and_eq_true] at h
    simp [h.1, ih h.2]

theorem digits_unsigned (n : Nat) : unsigned (digits n) = true := by
  unfold unsigned some1
  obtain ⟨ht, hd⟩ := while_all (digits_all n)
  rw [ht, hd, digits_intOk]
  cases h : digits n with
  | nil => exact absurd h (digits_ne n)
  | cons c t => rfl

theorem isDigit_ne_minus {c : Char} (h : isDigit c = true) : c ≠ '-' := by
  intro e
  subst e
  exact absurd h (by decide)

theorem number_int (i : Int) : number (intText i) = true := by
  unfold intText
  split
  · exact digits_unsigned _
  · cases h : digits i.natAbs with
    | nil => exact absurd h (digits_ne _)
    | cons c t =>
      have hc : c ≠ '-' := by
        have := digits_all i.natAbs
        rw [h] at this
        simp only [List.all_cons, Bool.and_eq_true] at this
        exact isDigit_ne_minus this.1
      have hu := digits_unsigned i.natAbs
      rw [h] at hu
      unfold number
      split
      · next heq => injection heq with e _; exact absurd e hc
      · exact hu

theorem numChar_digit {c : Char} (h : isDigit c = true) : numChar c = true := by
  simp [numChar, h]

theorem chars_int (i : Int) : (intText i).all numChar = true := by
  have h : (digits i.natAbs).all numChar = true := by
    have := digits_all i.natAbs
    rw [List.all_eq_true] at this ⊢
    exact fun c hc => numChar_digit (this c hc)
  unfold intText
  split
  · rw [List.all_cons, h]; rfl
  · exact h

/-- What follows a value is not part of a number. -/
def Ends (r : Text) : Prop := ∀ c ∈ r.head?, numChar c = false

theorem scalar_number (l r : Text) (hn : number l = true) (hc : l.all numChar = true) (hr : Ends r) :
    ∃ c t, l = c :: t ∧ numChar c = true ∧ scalar (l ++ r) = some (.num l, r) := by
  cases l with
  | nil => exact absurd hn (by decide)
  | cons c t =>
    have hcc : numChar c = true := by simp only [List.all_cons, Bool.and_eq_true] at hc; exact hc.1
    refine ⟨c, t, rfl, hcc, ?_⟩
    have hl : ∀ (w : Char) (ws : Text) (j : J), numChar w = false → lit (w :: ws) j (c :: t ++ r) = none := by
      intro w ws j hw
      unfold lit
      rw [if_neg]
      simp only [List.length_cons, List.cons_append, List.take_succ_cons, List.cons.injEq, not_and]
      intro e
      subst e
      rw [hw] at hcc
      exact absurd hcc (by decide)
    have ht : (c :: t ++ r).takeWhile numChar = c :: t := by
      rw [List.takeWhile_append_of_pos (List.all_eq_true.1 hc)]
      cases r with
      | nil => simp
      | cons d r => simp [List.takeWhile, hr d rfl]
    have hd : (c :: t ++ r).dropWhile numChar = r := by
      rw [List.dropWhile_append_of_pos (List.all_eq_true.1 hc)]
      cases r with
      | nil => rfl
      | cons d r => simp [List.dropWhile, hr d rfl]
    unfold scalar
    show (match lit ('n' :: _) .null _ with | some r => some r | none => _) = _
    rw [hl 'n' _ _ (by decide)]
    show (match lit ('t' :: _) _ _ with | some r => some r | none => _) = _
    rw [hl 't' _ _ (by decide)]
    show (match lit ('f' :: _) _ _ with | some r => some r | none => _) = _
    rw [hl 'f' _ _ (by decide)]
    simp only [ht, hd, hn, if_true]

/-- Characters a value begins with. -/
def First (c : Char) : Prop := ws c = false ∧ c ≠ ']' ∧ c ≠ '}' ∧ c ≠ ',' ∧ c ≠ ':'

theorem first_num {c : Char} (h : numChar c = true) : First c ∧ c ≠ '"' ∧ c ≠ '[' ∧ c ≠ '{' := by
  refine ⟨⟨?_, ?_, ?_, ?_, ?_⟩, ?_, ?_, ?_⟩
  · cases hw : ws c with
    | false => rfl
    | true =>
      simp only [ws, Bool.or_eq_true, beq_iff_eq] at hw
      rcases hw with ((e | e) | e) | e <;> (subst e; exact absurd h (by decide))
  all_goals (intro e; subst e; exact absurd h (by decide))

theorem skip_first {c : Char} {t : Text} (h : ws c = false) : skip (c :: t) = c :: t := by
  simp [skip, List.dropWhile, h]

/-! ## Values -/

/-- A value begins with a character that no separator begins with. -/
theorem enc_first (v : V) (hg : Good v) : ∃ c t, enc v = c :: t ∧ First c := by
  have num : ∀ l : Text, number l = true → l.all numChar = true → ∃ c t, l = c :: t ∧ First c := by
    intro l hn hc
    obtain ⟨c, t, e, hcc, _⟩ := scalar_number l [] hn hc (by intro c h; cases h)
    exact ⟨c, t, e, (first_num hcc).1⟩
  have lit : ∀ (c : Char) (t : Text), c ∈ ['n', 't', 'f', '"', '[', '{'] → ∃ c' t', c :: t = c' :: t' ∧ First c' := by
    intro c t hc
    refine ⟨c, t, rfl, ?_⟩
    simp only [List.mem_cons, List.not_mem_nil, or_false] at hc
    unfold First
    rcases hc with e | e | e | e | e | e <;> (subst e; decide)
  cases v with
  | null => exact lit 'n' _ (by decide)
  | bool b =>
    cases b with
    | false => exact lit 'f' _ (by decide)
    | true => exact lit 't' _ (by decide)
  | int i => exact num _ (number_int i) (chars_int i)
  | float l =>
    cases l with
    | none => exact lit 'n' _ (by decide)
    | some l => unfold Good at hg; exact num _ hg.1 hg.2
  | decimal l => unfold Good at hg; exact num _ hg.1 hg.2
  | text s => exact lit '"' _ (by decide)
  | list vs => exact lit '[' _ (by decide)
  | struct fs => exact lit '{' _ (by decide)

theorem value_number (l r : Text) (n : Nat) (hn : number l = true) (hc : l.all numChar = true) (hr : Ends r) :
    value (n + 1) (l ++ r) = some (.num l, r) := by
  obtain ⟨c, t, e, hcc, hs⟩ := scalar_number l r hn hc hr
  subst e
  obtain ⟨hf, h1, h2, h3⟩ := first_num hcc
  rw [List.cons_append] at hs ⊢
  rw [value.eq_def]
  simp only [skip_first hf.1]
  exact hs

theorem skip_sep {c : Char} {t : Text} (h : c ∈ [',', ':', ']', '}']) : skip (c :: t) = c :: t := by
  apply skip_first
  simp only [List.mem_cons, List.not_mem_nil, or_false] at h
  rcases h with e | e | e | e <;> (subst e; decide)

theorem ends_sep {c : Char} {t : Text} (h : c ∈ [',', ':', ']', '}']) : Ends (c :: t) := by
  intro d hd
  simp only [List.head?_cons, Option.mem_def, Option.some.injEq] at hd
  subst hd
  simp only [List.mem_cons, List.not_mem_nil, or_false] at h
  rcases h with e | e | e | e <;> (subst e; decide)

mutual
/-- Reading what was written for a value gives the value. -/
theorem value_enc (v : V) (n : Nat) (r : Text) (hg : Good v) (hn : (enc v).length < n) (hr : Ends r) :
    value n (enc v ++ r) = some (means v, r) := by
  match n, hn with
  | n + 1, hn =>
  match v, hg, hn with
  | .null, _, _ => rfl
  | .bool true, _, _ => rfl
  | .bool false, _, _ => rfl
  | .int i, _, _ => exact value_number _ r n (number_int i) (chars_int i) hr
  | .float none, _, _ => rfl
  | .float (some l), hg, _ =>
    unfold Good at hg
    exact value_number _ r n hg.1 hg.2 hr
  | .decimal l, hg, _ =>
    unfold Good at hg
    exact value_number _ r n hg.1 hg.2 hr
  | .text s, _, _ =>
    have h := strRest_text s r
    show value (n + 1) ('"' :: (s.flatMap escChar ++ ['"'] ++ r)) = _
    rw [List.append_assoc]
    rw [value.eq_def]
    simp only [skip_first (show ws '"' = false by decide)]
    show (match strRest (s.flatMap escChar ++ '"' :: r) with | some (s, r') => some (J.str s, r') | none => none) = _
    rw [h]
    rfl
  | .list [], _, _ =>
    rfl
  | .list (v :: vs), hg, hn =>
    unfold Good at hg
    have hl : (encList (v :: vs)).length + 2 ≤ n := by
      simp only [enc, List.length_cons, List.length_append, List.length_nil] at hn
      omega
    have h := elems_enc (v :: vs) n r (by simp) hg hl
    obtain ⟨c, t, e, hf⟩ := enc_first v (by unfold GoodList at hg; exact hg.1)
    show value (n + 1) ('[' :: (encList (v :: vs) ++ [']'] ++ r)) = _
    rw [List.append_assoc]
    rw [value.eq_def]
    simp only [skip_first (show ws '[' = false by decide)]
    show (match skip (encList (v :: vs) ++ ']' :: r) with
      | ']' :: r' => some (J.arr [], r')
      | _ =>
        match elems n (encList (v :: vs) ++ ']' :: r) with
        | some (xs, r') => some (.arr xs, r')
        | none => none) = _
    rw [h]
    have hs : skip (encList (v :: vs) ++ ']' :: r) = c :: (t ++ encListMore vs ++ ']' :: r) := by
      rw [encList, e]
      exact skip_first hf.1
    rw [hs]
    split
    · next heq => injection heq with e1 _; exact absurd e1 hf.2.1
    · rfl
  | .struct [], _, _ =>
    rfl
  | .struct ((k, v) :: fs), hg, hn =>
    unfold Good at hg
    have hl : (encFields ((k, v) :: fs)).length + 2 ≤ n := by
      simp only [enc, List.length_cons, List.length_append, List.length_nil] at hn
      omega
    have h := members_enc ((k, v) :: fs) n r (by simp) hg hl
    show value (n + 1) ('{' :: (encFields ((k, v) :: fs) ++ ['}'] ++ r)) = _
    rw [List.append_assoc]
    rw [value.eq_def]
    simp only [skip_first (show ws '{' = false by decide)]
    show (match skip (encFields ((k, v) :: fs) ++ '}' :: r) with
      | '}' :: r' => some (J.obj [], r')
      | _ =>
        match members n (encFields ((k, v) :: fs) ++ '}' :: r) with
        | some (xs, r') => some (.obj xs, r')
        | none => none) = _
    rw [h]
    have hs : skip (encFields ((k, v) :: fs) ++ '}' :: r) = encFields ((k, v) :: fs) ++ '}' :: r := by
      rw [encFields, strText]
      exact skip_first (by decide)
    rw [hs, encFields, strText]
    rfl

theorem elems_enc (l : List V) (n : Nat) (r : Text) (h0 : l ≠ []) (hg : GoodList l)
    (hn : (encList l).length + 2 ≤ n) : elems n (encList l ++ ']' :: r) = some (meansList l, r) := by
  match n, hn with
  | n + 1, hn =>
  match l, h0, hg, hn with
  | [v], _, hg, hn =>
    unfold GoodList at hg
    simp only [encList, encListMore, List.append_nil] at hn ⊢
    have h := value_enc v n (']' :: r) hg.1 (by omega) (ends_sep (by decide))
    rw [elems.eq_def]
    simp only [h, skip_sep (show ']' ∈ [',', ':', ']', '}'] by decide)]
    rfl
  | v :: w :: vs, _, hg, hn =>
    unfold GoodList at hg
    have he : encList (v :: w :: vs) = enc v ++ ',' :: encList (w :: vs) := rfl
    rw [he] at hn ⊢
    simp only [List.length_append, List.length_cons] at hn
    have h := value_enc v n (',' :: (encList (w :: vs) ++ ']' :: r)) hg.1 (by omega) (ends_sep (by decide))
    have h2 := elems_enc (w :: vs) n r (by simp) hg.2 (by omega)
    rw [List.append_assoc, List.cons_append, elems.eq_def]
    simp only [h, skip_sep (show ',' ∈ [',', ':', ']', '}'] by decide), h2]
    rfl

theorem members_enc (l : List (Text × V)) (n : Nat) (r : Text) (h0 : l ≠ []) (hg : GoodFields l)
    (hn : (encFields l).length + 2 ≤ n) : members n (encFields l ++ '}' :: r) = some (meansFields l, r) := by
  match n, hn with
  | n + 1, hn =>
  match l, h0, hg, hn with
  | [(k, v)], _, hg, hn =>
    unfold GoodFields at hg
    have he : encFields [(k, v)] = '"' :: (k.flatMap escChar ++ '"' :: ':' :: enc v) := by
      simp [encFields, encFieldsMore, strText]
    rw [he] at hn ⊢
    simp only [List.length_append, List.length_cons] at hn
    have h := value_enc v n ('}' :: r) hg.1 (by omega) (ends_sep (by decide))
    have hk := strRest_text k (':' :: (enc v ++ '}' :: r))
    have ha : '"' :: (k.flatMap escChar ++ '"' :: ':' :: enc v) ++ '}' :: r =
        '"' :: (k.flatMap escChar ++ '"' :: ':' :: (enc v ++ '}' :: r)) := by simp
    rw [ha, members.eq_def]
    simp only [skip_first (show ws '"' = false by decide), hk, skip_sep (show ':' ∈ [',', ':', ']', '}'] by decide), h,
      skip_sep (show '}' ∈ [',', ':', ']', '}'] by decide)]
    rfl
  | (k, v) :: (k2, w) :: fs, _, hg, hn =>
    unfold GoodFields at hg
    have he : encFields ((k, v) :: (k2, w) :: fs) =
        '"' :: (k.flatMap escChar ++ '"' :: ':' :: (enc v ++ ',' :: encFields ((k2, w) :: fs))) := by
      simp [encFields, encFieldsMore, strText]
    rw [he] at hn ⊢
    simp only [List.length_append, List.length_cons] at hn
    have h := value_enc v n (',' :: (encFields ((k2, w) :: fs) ++ '}' :: r)) hg.1 (by omega) (ends_sep (by decide))
    have h2 := members_enc ((k2, w) :: fs) n r (by simp) hg.2 (by omega)
    have hk := strRest_text k (':' :: (enc v ++ ',' :: (encFields ((k2, w) :: fs) ++ '}' :: r)))
    have ha : '"' :: (k.flatMap escChar ++ '"' :: ':' :: (enc v ++ ',' :: encFields ((k2, w) :: fs))) ++ '}' :: r =
        '"' :: (k.flatMap escChar ++ '"' :: ':' :: (enc v ++ ',' :: (encFields ((k2, w) :: fs) ++ '}' :: r))) := by simp
    rw [ha, members.eq_def]
    simp only [skip_first (show ws '"' = false by decide), hk, skip_sep (show ':' ∈ [',', ':', ']', '}'] by decide), h,
      skip_sep (show ',' ∈ [',', ':', ']', '}'] by decide), h2]
    rfl
end

/-- The text of a value is read as the value. -/
theorem all_enc (v : V) (hg : Good v) : all (enc v) = some (means v) := by
  have h := value_enc v ((enc v).length + 1) [] hg (by omega) (by intro c hc; cases hc)
  rw [List.append_nil] at h
  unfold all
  rw [h]
  rfl

end Parse

/-! ## Lines -/

theorem escChar_nl (c : Char) : '\n' ∉ escChar c := by
  unfold escChar
  have hx : ∀ n < 16, hexLow n ≠ '\n' := by decide
  repeat' split
  all_goals try decide
  · next h =>
    have h1 := hx (c.toNat / 16) (by omega)
    have h2 := hx (c.toNat % 16) (by omega)
    simp only [List.mem_cons, List.not_mem_nil, or_false, not_or]
    exact ⟨by decide, by decide, by decide, by decide, fun e => h1 e.symm, fun e => h2 e.symm⟩
  · next h _ _ _ =>
    intro hc
    simp only [List.mem_cons, List.not_mem_nil, or_false] at hc
    subst hc
    exact h rfl

theorem strText_nl (s : Text) : '\n' ∉ strText s := by
  unfold strText
  intro h
  simp only [List.mem_cons, List.mem_append, List.mem_flatMap, List.not_mem_nil, or_false] at h
  rcases h with h | ⟨c, _, h⟩ | h
  · exact absurd h (by decide)
  · exact escChar_nl c h
  · exact absurd h (by decide)

theorem num_nl {l : Text} (h : l.all Parse.numChar = true) : '\n' ∉ l := by
  intro hm
  exact absurd (List.all_eq_true.1 h _ hm) (by decide)

mutual
/-- A value is written on one line. -/
theorem enc_nl (v : V) (hg : Good v) : '\n' ∉ enc v := by
  match v, hg with
  | .null, _ => decide
  | .bool true, _ => decide
  | .bool false, _ => decide
  | .int i, _ => exact num_nl (Parse.chars_int i)
  | .float none, _ => decide
  | .float (some l), hg => unfold Good at hg; exact num_nl hg.2
  | .decimal l, hg => unfold Good at hg; exact num_nl hg.2
  | .text s, _ => exact strText_nl s
  | .list vs, hg =>
    unfold Good at hg
    have h := encList_nl vs hg
    simp [enc, h.1]
  | .struct fs, hg =>
    unfold Good at hg
    have h := encFields_nl fs hg
    simp [enc, h.1]

theorem encList_nl (vs : List V) (hg : GoodList vs) : '\n' ∉ encList vs ∧ '\n' ∉ encListMore vs := by
  match vs, hg with
  | [], _ => simp [encList, encListMore]
  | v :: vs, hg =>
    unfold GoodList at hg
    have h1 := enc_nl v hg.1
    have h2 := encList_nl vs hg.2
    simp [encList, encListMore, h1, h2.2]

theorem encFields_nl (fs : List (Text × V)) (hg : GoodFields fs) : '\n' ∉ encFields fs ∧ '\n' ∉ encFieldsMore fs := by
  match fs, hg with
  | [], _ => simp [encFields, encFieldsMore]
  | (k, v) :: fs, hg =>
    unfold GoodFields at hg
    have h1 := enc_nl v hg.1
    have h2 := encFields_nl fs hg.2
    have h3 := strText_nl k
    simp [encFields, encFieldsMore, h1, h2.2, h3]
end

theorem lines_line (l t : Text) (h : '\n' ∉ l) : lines (l ++ '\n' :: t) = (l :: (lines t).1, (lines t).2) := by
  induction l with
  | nil => rfl
  | cons c l ih =>
    simp only [List.mem_cons, not_or] at h
    rw [List.cons_append, lines, if_neg (fun e => h.1 e.symm), ih h.2]

/-- A text that does not begin with a line end begins a line, or the part after the last line. -/
theorem lines_first (c : Char) (t : Text) (h : c ≠ '\n') :
    (∃ l ls, (lines (c :: t)).1 = (c :: l) :: ls) ∨ ∃ r, (lines (c :: t)).2 = c :: r := by
  rw [lines, if_neg h]
  cases hl : lines t with
  | mk ls r =>
    cases ls with
    | nil => exact Or.inr ⟨r, rfl⟩
    | cons l ls => exact Or.inl ⟨l, ls, rfl⟩

theorem readAll_append (a b : List Text) :
    readAll (a ++ b) = (match readAll a, readAll b with | some x, some y => some (x ++ y) | _, _ => none) := by
  induction a with
  | nil => cases h : readAll b <;> simp [readAll, h]
  | cons l a ih =>
    rw [List.cons_append, readAll, ih, readAll]
    cases Parse.all l <;> cases readAll a <;> cases readAll b <;> rfl

/-! ## C121 -/

/-- The rows of an answer are as the library provides them: every column has an encoder and fractional numbers are
printed as numbers. -/
def Rows (b : Batch) : Prop := b.supported = true ∧ ∀ r ∈ b.rows, GoodList r

theorem goodFields_zip (names : List Text) (row : List V) (h : GoodList row) : GoodFields (names.zip row) := by
  induction names generalizing row with
  | nil => simp [GoodFields]
  | cons n ns ih =>
    cases row with
    | nil => simp [GoodFields]
    | cons v vs =>
      unfold GoodList at h
      show Good v ∧ GoodFields (ns.zip vs)
      exact ⟨h.1, ih vs h.2⟩

theorem chunk_rows (b : Batch) (h : b.supported = true) :
    chunk (.ok b) = b.rows.flatMap (fun r => rowText b.names r ++ ['\n']) := by
  unfold chunk batchToJson
  cases b with
  | mk names supported rows =>
    simp only at h
    subst h
    cases rows with
    | nil => rfl
    | cons r rows => rfl

theorem lines_rows (names : List Text) (rows : List (List V)) (h : ∀ r ∈ rows, GoodList r) (t : Text) :
    lines (rows.flatMap (fun r => rowText names r ++ ['\n']) ++ t) =
      (rows.map (rowText names) ++ (lines t).1, (lines t).2) := by
  induction rows with
  | nil => rfl
  | cons r rows ih =>
    have hr : '\n' ∉ rowText names r := by
      apply enc_nl
      unfold Good
      exact goodFields_zip names r (h r (by simp))
    rw [List.flatMap_cons, List.append_assoc, List.append_assoc, List.singleton_append, lines_line _ _ hr,
      ih (fun r hr => h r (by simp [hr]))]
    rfl

theorem readAll_rows (names : List Text) (rows : List (List V)) (h : ∀ r ∈ rows, GoodList r) :
    readAll (rows.map (rowText names)) = some (rows.map (fun r => .obj (meansFields (names.zip r)))) := by
  induction rows with
  | nil => rfl
  | cons r rows ih =>
    have hr : Parse.all (rowText names r) = some (.obj (meansFields (names.zip r))) := by
      have := Parse.all_enc (.struct (rowFields names r)) (by unfold Good; exact goodFields_zip names r (h r (by simp)))
      rwa [means] at this
    rw [List.map_cons, readAll, hr, ih (fun r hr => h r (by simp [hr]))]
    rfl

/-- Body of batches that did not fail, followed by anything. -/
theorem lines_body (bs : List Batch) (h : ∀ b ∈ bs, Rows b) (t : Text) :
    ∃ ls, lines (body (bs.map .ok) ++ t) = (ls ++ (lines t).1, (lines t).2) ∧
      ls = bs.flatMap (fun b => b.rows.map (rowText b.names)) ∧
      readAll ls = some (bs.flatMap (fun b => b.rows.map (fun r => .obj (meansFields (b.names.zip r))))) := by
  induction bs with
  | nil => exact ⟨[], rfl, rfl, rfl⟩
  | cons b bs ih =>
    obtain ⟨ls, h1, h2, h3⟩ := ih (fun b hb => h b (by simp [hb]))
    obtain ⟨hs, hb⟩ := h b (by simp)
    refine ⟨b.rows.map (rowText b.names) ++ ls, ?_, ?_, ?_⟩
    · have e : body ((b :: bs).map .ok) ++ t =
          b.rows.flatMap (fun r => rowText b.names r ++ ['\n']) ++ (body (bs.map .ok) ++ t) := by
        unfold body
        rw [List.map_cons, List.flatMap_cons, chunk_rows b hs, List.append_assoc]
      rw [e, lines_rows _ _ hb, h1, List.append_assoc]
    · rw [h2, List.flatMap_cons]
    · rw [readAll_append, readAll_rows _ _ hb, h3, List.flatMap_cons]

/-- **C121 (rows).** A client that reads the answer line by line gets one JSON object per row, in the order of the rows,
whose members are the columns in their order with their values, however the result is cut into batches. -/
theorem C121_rows (bs : List Batch) (h : ∀ b ∈ bs, Rows b) :
    readBody (body (bs.map .ok)) =
      some (bs.flatMap (fun b => b.rows.map (fun r => .obj (meansFields (b.names.zip r))))) := by
  obtain ⟨ls, h1, _, h3⟩ := lines_body bs h []
  rw [List.append_nil] at h1
  unfold readBody
  rw [h1]
  show (if ([] : Text).isEmpty then readAll (ls ++ []) else none) = _
  rw [List.append_nil, h3]
  rfl

/-- **C121 (lines).** There are as many lines as rows: nothing in a name or a value ends a line. -/
theorem C121_lines (bs : List Batch) (h : ∀ b ∈ bs, Rows b) :
    (lines (body (bs.map .ok))).1.length = (bs.map (fun b => b.rows.length)).sum ∧
      (lines (body (bs.map .ok))).2 = [] := by
  obtain ⟨ls, h1, h2, _⟩ := lines_body bs h []
  rw [List.append_nil] at h1
  rw [h1]
  refine ⟨?_, rfl⟩
  show (ls ++ []).length = _
  rw [List.append_nil, h2, List.length_flatMap]
  simp

theorem label_first (k : Kind) : ∃ c t, k.label.toList = c :: t ∧ c ∈ ['N', 'E', 'C', 'M', 'P', 'S', 'D', 'A', 'J', 'I', 'R'] := by
  cases k <;> exact ⟨_, _, rfl, by decide⟩

theorem number_first {c : Char} {t : Text} (h1 : c ≠ '-') (h2 : Parse.isDigit c = false) : Parse.number (c :: t) = false := by
  have hu : Parse.unsigned (c :: t) = false := by
    simp [Parse.unsigned, Parse.some1, h2]
  unfold Parse.number
  split
  · next heq => injection heq with e _; exact absurd e h1
  · exact hu

theorem all_upper (c : Char) (t : Text) (h : c ∈ ['N', 'E', 'C', 'M', 'P', 'S', 'D', 'A', 'J', 'I', 'R']) :
    Parse.all (c :: t) = none := by
  have hp : Parse.ws c = false ∧ c ≠ '"' ∧ c ≠ '[' ∧ c ≠ '{' ∧ c ≠ '-' ∧ Parse.isDigit c = false ∧ c ≠ 'n' ∧ c ≠ 't' ∧
      c ≠ 'f' := by
    simp only [List.mem_cons, List.not_mem_nil, or_false] at h
    rcases h with e | e | e | e | e | e | e | e | e | e | e <;> (subst e; decide)
  obtain ⟨hw, h1, h2, h3, h4, h5, h6, h7, h8⟩ := hp
  have hl : ∀ (w : Char) (ws : Text) (j : J), c ≠ w → Parse.lit (w :: ws) j (c :: t) = none := by
    intro w ws j hw
    unfold Parse.lit
    rw [if_neg]
    simp only [List.length_cons, List.take_succ_cons, List.cons.injEq, not_and]
    exact fun e => absurd e hw
  have hn : Parse.number ((c :: t).takeWhile Parse.numChar) = false := by
    rw [List.takeWhile_cons]
    split
    · exact number_first h4 h5
    · rfl
  have hs : Parse.scalar (c :: t) = none := by
    unfold Parse.scalar
    show (match Parse.lit ('n' :: _) .null _ with | some r => some r | none => _) = _
    rw [hl 'n' _ _ h6]
    show (match Parse.lit ('t' :: _) _ _ with | some r => some r | none => _) = _
    rw [hl 't' _ _ h7]
    show (match Parse.lit ('f' :: _) _ _ with | some r => some r | none => _) = _
    rw [hl 'f' _ _ h8]
    simp [hn]
  have hv : ∀ n, Parse.value (n + 1) (c :: t) = none := by
    intro n
    rw [Parse.value.eq_def]
    simp only [Parse.skip_first hw]
    exact hs
  unfold Parse.all
  rw [hv]

/-- A text that begins with such a letter is never a sequence of rows, whatever rows are in front of it. -/
theorem readBody_upper (bs : List Batch) (h : ∀ b ∈ bs, Rows b) (c : Char) (t : Text)
    (hc : c ∈ ['N', 'E', 'C', 'M', 'P', 'S', 'D', 'A', 'J', 'I', 'R']) :
    readBody (body (bs.map .ok) ++ c :: t) = none := by
  obtain ⟨ls, h1, _, h3⟩ := lines_body bs h (c :: t)
  have hnl : c ≠ '\n' := by
    simp only [List.mem_cons, List.not_mem_nil, or_false] at hc
    rcases hc with e | e | e | e | e | e | e | e | e | e | e <;> (subst e; decide)
  unfold readBody
  rw [h1]
  rcases lines_first c t hnl with ⟨l, ls', e⟩ | ⟨r, e⟩
  · show (if (lines (c :: t)).2.isEmpty then readAll (ls ++ (lines (c :: t)).1) else none) = none
    rw [e, readAll_append, h3]
    simp only [readAll, all_upper c l hc, ite_self]
  · show (if (lines (c :: t)).2.isEmpty then readAll (ls ++ (lines (c :: t)).1) else none) = none
    rw [e]
    rfl

/-- **C121 (failures).** If the query fails after some rows have been sent, the answer cannot be read as rows: the client
never takes part of a result for the result, whatever the message says and whatever is sent after it. -/
theorem C121_failure (bs : List Batch) (h : ∀ b ∈ bs, Rows b) (x : Except ArrowErr Batch) (e : ArrowErr)
    (hx : batchToJson x = .error e) (rest : List (Except ArrowErr Batch)) :
    readBody (body (bs.map .ok ++ x :: rest)) = none := by
  obtain ⟨c, t, hl, hc⟩ := label_first e.kind
  have e1 : body (bs.map .ok ++ x :: rest) = body (bs.map .ok) ++ c :: (t ++ e.message ++ body rest) := by
    unfold body
    rw [List.flatMap_append, List.flatMap_cons]
    unfold chunk
    rw [hx]
    show _ ++ (e.kind.label.toList ++ e.message ++ _) = _
    rw [hl]
    simp
  rw [e1]
  exact readBody_upper bs h c _ hc

theorem meansFields_eq (fs : List (Text × V)) : meansFields fs = fs.map (fun f => (f.1, means f.2)) := by
  induction fs with
  | nil => rfl
  | cons f fs ih => obtain ⟨k, v⟩ := f; rw [meansFields, ih]; rfl

theorem meansList_eq (vs : List V) : meansList vs = vs.map means := by
  induction vs with
  | nil => rfl
  | cons v vs ih => rw [meansList, ih]; rfl

theorem key_unique {ms : List (Text × J)} {k : Text} {j j' : J} (h : (k, j) ∈ ms) (h' : (k, j') ∈ ms)
    (hd : (ms.map (·.1)).Nodup) : j' = j := by
  induction ms with
  | nil => cases h
  | cons a ms ih =>
    simp only [List.map_cons, List.nodup_cons] at hd
    simp only [List.mem_cons] at h h'
    rcases h with h | h <;> rcases h' with h' | h'
    · rw [← h] at h'; injection h'
    · rw [← h] at hd; exact absurd (List.mem_map.2 ⟨_, h', rfl⟩) hd.1
    · rw [← h'] at hd; exact absurd (List.mem_map.2 ⟨_, h, rfl⟩) hd.1
    · exact ih h h' hd.2

theorem find_unique {ms : List (Text × J)} {k : Text} {j : J} (hm : (k, j) ∈ ms) (hd : (ms.map (·.1)).Nodup) :
    (ms.reverse.find? (fun m => m.1 == k)).map (·.2) = some j := by
  cases hf : ms.reverse.find? (fun m => m.1 == k) with
  | none =>
    rw [List.find?_eq_none] at hf
    exact absurd (beq_self_eq_true k) (hf (k, j) (by simpa using hm))
  | some m =>
    have hk := List.find?_some hf
    have hmem := List.mem_of_find?_eq_some hf
    rw [List.mem_reverse] at hmem
    obtain ⟨k', j'⟩ := m
    simp only [beq_iff_eq] at hk
    subst hk
    rw [key_unique hm hmem hd]
    rfl

/-- **C121 (columns, part).** If the columns have different names, a client finds the value of each column under its
name.  Missing: results with two columns of one name (`C121_violated_names`). -/
theorem C121_columns_partial (names : List Text) (hd : names.Nodup) (row : List V) (hl : row.length = names.length)
    (i : Nat) (hi : i < names.length) :
    (J.obj (meansFields (names.zip row))).get names[i] = some (means (row[i]'(by omega))) := by
  show ((meansFields (names.zip row)).reverse.find? _).map _ = _
  rw [meansFields_eq]
  apply find_unique
  · rw [List.mem_map]
    refine ⟨(names[i], row[i]'(by omega)), ?_, rfl⟩
    rw [List.mem_iff_getElem]
    exact ⟨i, by simp [hl, hi], by simp⟩
  · rw [List.map_map]
    have : ((fun x : Text × J => x.1) ∘ fun f : Text × V => (f.1, means f.2)) = (·.1) := rfl
    rw [this, List.map_fst_zip (by omega)]
    exact hd

/-- **C121 violated (columns of one name).** Of two columns with the same name, as in `SELECT a.x, b.x FROM a JOIN b`, a
client gets the second; the first has no influence on what is found under the name. -/
theorem C121_violated_names (k : Text) (v w : V) (hv : Good v) (hw : Good w) :
    readBody (body [.ok ⟨[k, k], true, [[v, w]]⟩]) = some [.obj [(k, means v), (k, means w)]] ∧
      (J.obj [(k, means v), (k, means w)]).get k = some (means w) := by
  constructor
  · have := C121_rows [⟨[k, k], true, [[v, w]]⟩] (by
      intro b hb
      simp only [List.mem_cons, List.not_mem_nil, or_false] at hb
      subst hb
      refine ⟨rfl, fun r hr => ?_⟩
      simp only [List.mem_cons, List.not_mem_nil, or_false] at hr
      subst hr
      simp only [GoodList]
      exact ⟨hv, hw, trivial⟩)
    exact this
  · simp [J.get]

/-- **C121 violated (NaN).** A result with NaN or an infinity gives the same answer as one with NULL. -/
theorem C121_violated_nan (k : Text) :
    body [.ok ⟨[k], true, [[.float none]]⟩] = body [.ok ⟨[k], true, [[.null]]⟩] := rfl

/-! ### Nothing else is lost -/

/-- Types of columns. -/
inductive Ty where
  | bool | int | float | decimal | text
  | list (t : Ty)
  | struct (fs : List (Text × Ty))

mutual
/-- The value is of the type; NULL is of any type. -/
def HasTy : V → Ty → Prop
  | .null, _ => True
  | .bool _, .bool => True
  | .int _, .int => True
  | .float _, .float => True
  | .decimal _, .decimal => True
  | .text _, .text => True
  | .list vs, .list t => ListTy vs t
  | .struct fs, .struct ts => FieldsTy fs ts
  | _, _ => False

def ListTy : List V → Ty → Prop
  | [], _ => True
  | v :: vs, t => HasTy v t ∧ ListTy vs t

def FieldsTy : List (Text × V) → List (Text × Ty) → Prop
  | [], [] => True
  | (k, v) :: fs, (k', t) :: ts => k = k' ∧ HasTy v t ∧ FieldsTy fs ts
  | _, _ => False
end

mutual
/-- No NaN and no infinity in the value. -/
def Fin : V → Prop
  | .float none => False
  | .list vs => FinList vs
  | .struct fs => FinFields fs
  | _ => True

def FinList : List V → Prop
  | [] => True
  | v :: vs => Fin v ∧ FinList vs

def FinFields : List (Text × V) → Prop
  | [] => True
  | (_, v) :: fs => Fin v ∧ FinFields fs
end

/-- The number a text of digits stands for. -/
def natOf (t : Text) : Nat := t.foldl (fun n c => 10 * n + (c.toNat - 48)) 0

/-- The number a text of digits with an optional sign stands for. -/
def intOf : Text → Int
  | '-' :: t => -(natOf t : Int)
  | t => natOf t

theorem natOf_digits (n : Nat) : natOf (digits n) = n := by
  induction n using digits.induct with
  | case1 n h =>
    rw [digits, if_pos h]
    have : ∀ k < 10, natOf [digit k] = k := by decide
    exact this n h
  | case2 n h ih =>
    rw [digits, if_neg h]
    unfold natOf at ih ⊢
    rw [List.foldl_append, ih]
    have hd : ∀ k < 10, (Char.ofNat (48 + k)).toNat - 48 = k := by decide
    show 10 * (n / 10) + ((digit n).toNat - 48) = n
    unfold digit
    rw [hd _ (Nat.mod_lt _ (by omega))]
    omega

/-- **C121 (integers).** The text of an integer is that integer, in full. -/
theorem C121_integers (i : Int) : intOf (intText i) = i := by
  unfold intText
  split
  · show -(natOf (digits i.natAbs) : Int) = i
    rw [natOf_digits]
    omega
  · have hd := Parse.digits_all i.natAbs
    cases h : digits i.natAbs with
    | nil => exact absurd h (Parse.digits_ne _)
    | cons c t =>
      rw [h] at hd
      simp only [List.all_cons, Bool.and_eq_true] at hd
      have hn := natOf_digits i.natAbs
      rw [h] at hn
      unfold intOf
      split
      · next heq => injection heq with e _; exact absurd e (Parse.isDigit_ne_minus hd.1)
      · rw [hn]; omega

theorem intText_inj {i j : Int} (h : intText i = intText j) : i = j := by
  rw [← C121_integers i, h, C121_integers]

theorem means_null {w : V} (f : Fin w) (h : means w = .null) : w = .null := by
  cases w with
  | float l =>
    cases l with
    | none => simp [Fin] at f
    | some l => simp [means] at h
  | _ => first | rfl | (simp [means] at h)

theorem means_bool {w : V} {b : Bool} (h : means w = .bool b) : w = .bool b := by
  cases w with
  | float l => cases l <;> simp [means] at h
  | _ => simp [means] at h; try (rw [h])

theorem means_num {w : V} {l : Text} (h : means w = .num l) :
    (∃ i, w = .int i ∧ intText i = l) ∨ w = .float (some l) ∨ w = .decimal l := by
  cases w with
  | float l =>
    cases l with
    | none => simp [means] at h
    | some l => simp only [means, J.num.injEq] at h; rw [h]; exact Or.inr (Or.inl rfl)
  | int i => simp only [means, J.num.injEq] at h; exact Or.inl ⟨i, rfl, h⟩
  | decimal l => simp only [means, J.num.injEq] at h; rw [h]; exact Or.inr (Or.inr rfl)
  | _ => simp [means] at h

theorem means_str {w : V} {s : Text} (h : means w = .str s) : w = .text s := by
  cases w with
  | float l => cases l <;> simp [means] at h
  | _ => simp [means] at h; try (rw [h])

theorem means_arr {w : V} {js : List J} (h : means w = .arr js) : ∃ ws, w = .list ws ∧ meansList ws = js := by
  cases w with
  | float l => cases l <;> simp [means] at h
  | list ws => simp only [means, J.arr.injEq] at h; exact ⟨ws, rfl, h⟩
  | _ => simp [means] at h

theorem means_obj {w : V} {js : List (Text × J)} (h : means w = .obj js) : ∃ ws, w = .struct ws ∧ meansFields ws = js := by
  cases w with
  | float l => cases l <;> simp [means] at h
  | struct ws => simp only [means, J.obj.injEq] at h; exact ⟨ws, rfl, h⟩
  | _ => simp [means] at h

mutual
/-- Different values of a type are different in JSON. -/
theorem means_inj (v w : V) (t : Ty) (hv : HasTy v t) (hw : HasTy w t) (fv : Fin v) (fw : Fin w)
    (h : means v = means w) : v = w := by
  match v, hv, fv, h with
  | .null, _, _, h => exact (means_null fw (h.symm.trans (by simp [means]))).symm
  | .bool b, _, _, h => exact (means_bool (h.symm.trans (by simp [means]))).symm
  | .int i, hv, _, h =>
    have h' : means w = .num (intText i) := h.symm.trans (by simp [means])
    rcases means_num h' with ⟨j, e, hj⟩ | e | e
    · rw [e, intText_inj hj]
    · subst e; cases t <;> simp [HasTy] at hv hw
    · subst e; cases t <;> simp [HasTy] at hv hw
  | .float none, _, fv, _ => simp [Fin] at fv
  | .float (some l), hv, _, h =>
    have h' : means w = .num l := h.symm.trans (by simp [means])
    rcases means_num h' with ⟨j, e, hj⟩ | e | e
    · subst e; cases t <;> simp [HasTy] at hv hw
    · exact e.symm
    · subst e; cases t <;> simp [HasTy] at hv hw
  | .decimal l, hv, _, h =>
    have h' : means w = .num l := h.symm.trans (by simp [means])
    rcases means_num h' with ⟨j, e, hj⟩ | e | e
    · subst e; cases t <;> simp [HasTy] at hv hw
    · subst e; cases t <;> simp [HasTy] at hv hw
    · exact e.symm
  | .text s, _, _, h => exact (means_str (h.symm.trans (by simp [means]))).symm
  | .list vs, hv, fv, h =>
    have h' : means w = .arr (meansList vs) := h.symm.trans (by simp only [means])
    obtain ⟨ws, e, hj⟩ := means_arr h'
    subst e
    cases t with
    | list t =>
      unfold HasTy at hv hw
      unfold Fin at fv fw
      rw [meansList_inj vs ws t hv hw fv fw hj.symm]
    | _ => simp [HasTy] at hv
  | .struct fs, hv, fv, h =>
    have h' : means w = .obj (meansFields fs) := h.symm.trans (by simp only [means])
    obtain ⟨ws, e, hj⟩ := means_obj h'
    subst e
    cases t with
    | struct ts =>
      unfold HasTy at hv hw
      unfold Fin at fv fw
      rw [meansFields_inj fs ws ts hv hw fv fw hj.symm]
    | _ => simp [HasTy] at hv

theorem meansList_inj (vs ws : List V) (t : Ty) (hv : ListTy vs t) (hw : ListTy ws t) (fv : FinList vs) (fw : FinList ws)
    (h : meansList vs = meansList ws) : vs = ws := by
  match vs, ws with
  | [], [] => rfl
  | [], w :: ws => simp [meansList] at h
  | v :: vs, [] => simp [meansList] at h
  | v :: vs, w :: ws =>
    simp only [meansList, List.cons.injEq] at h
    unfold ListTy at hv hw
    unfold FinList at fv fw
    rw [means_inj v w t hv.1 hw.1 fv.1 fw.1 h.1, meansList_inj vs ws t hv.2 hw.2 fv.2 fw.2 h.2]

theorem meansFields_inj (fs gs : List (Text × V)) (ts : List (Text × Ty)) (hv : FieldsTy fs ts) (hw : FieldsTy gs ts)
    (fv : FinFields fs) (fw : FinFields gs) (h : meansFields fs = meansFields gs) : fs = gs := by
  match fs, gs, ts with
  | [], [], _ => rfl
  | [], (_, _) :: _, _ => simp [meansFields] at h
  | (_, _) :: _, [], _ => simp [meansFields] at h
  | (k, v) :: fs, (k', w) :: gs, [] => unfold FieldsTy at hv; exact hv.elim
  | (k, v) :: fs, (k', w) :: gs, (k'', t) :: ts =>
    simp only [meansFields, List.cons.injEq, Prod.mk.injEq] at h
    unfold FieldsTy at hv hw
    unfold FinFields at fv fw
    rw [means_inj v w t hv.2.1 hw.2.1 fv.1 fw.1 h.1.2, meansFields_inj fs gs ts hv.2.2 hw.2.2 fv.2 fw.2 h.2, h.1.1]
end

/-- The rows of the batches have the columns and are without NaN and infinities. -/
def Typed (cols : List (Text × Ty)) (b : Batch) : Prop :=
  b.names = cols.map (·.1) ∧ ∀ r ∈ b.rows, FieldsTy (b.names.zip r) cols ∧ r.length = cols.length ∧ FinList r

theorem finFields_zip (names : List Text) (row : List V) (h : FinList row) : FinFields (names.zip row) := by
  induction names generalizing row with
  | nil => simp [FinFields]
  | cons n ns ih =>
    cases row with
    | nil => simp [FinFields]
    | cons v vs =>
      unfold FinList at h
      show Fin v ∧ FinFields (ns.zip vs)
      exact ⟨h.1, ih vs h.2⟩

theorem rows_inj (cols : List (Text × Ty)) (as bs : List (List V))
    (ha : ∀ r ∈ as, FieldsTy ((cols.map (·.1)).zip r) cols ∧ r.length = cols.length ∧ FinList r)
    (hb : ∀ r ∈ bs, FieldsTy ((cols.map (·.1)).zip r) cols ∧ r.length = cols.length ∧ FinList r)
    (h : as.map (fun r => J.obj (meansFields ((cols.map (·.1)).zip r))) =
      bs.map (fun r => J.obj (meansFields ((cols.map (·.1)).zip r)))) : as = bs := by
  induction as generalizing bs with
  | nil => cases bs <;> simp at h ⊢
  | cons a as ih =>
    cases bs with
    | nil => simp at h
    | cons b bs =>
      simp only [List.map_cons, List.cons.injEq, J.obj.injEq] at h
      obtain ⟨ta, la, fa⟩ := ha a (by simp)
      obtain ⟨tb, lb, fb⟩ := hb b (by simp)
      have hz := meansFields_inj _ _ cols ta tb (finFields_zip _ _ fa) (finFields_zip _ _ fb) h.1
      have h1 : a = b := by
        have := congrArg (List.map (·.2)) hz
        rwa [List.map_snd_zip (by simp [la]), List.map_snd_zip (by simp [lb])] at this
      rw [h1, ih bs (fun r hr => ha r (by simp [hr])) (fun r hr => hb r (by simp [hr])) h.2]

/-- **C121 (nothing lost, part).** Given the columns and their types (which are in the header, C122), two results with the
same answer have the same rows.  Missing: NaN and the infinities (`C121_violated_nan`). -/
theorem C121_lossless_partial (cols : List (Text × Ty)) (as bs : List Batch) (ha : ∀ b ∈ as, Rows b ∧ Typed cols b)
    (hb : ∀ b ∈ bs, Rows b ∧ Typed cols b) (h : body (as.map .ok) = body (bs.map .ok)) :
    as.flatMap (·.rows) = bs.flatMap (·.rows) := by
  have e : ∀ xs : List Batch, (∀ b ∈ xs, Rows b ∧ Typed cols b) → readBody (body (xs.map .ok)) =
      some ((xs.flatMap (·.rows)).map (fun r => J.obj (meansFields ((cols.map (·.1)).zip r)))) := by
    intro xs hx
    rw [C121_rows xs (fun b hb => (hx b hb).1), List.map_flatMap]
    congr 1
    induction xs with
    | nil => rfl
    | cons b xs ih =>
      rw [List.flatMap_cons, List.flatMap_cons, (hx b (by simp)).2.1, ih (fun b hb => hx b (by simp [hb]))]
  have h2 := (e as ha).symm.trans ((congrArg readBody h).trans (e bs hb))
  injection h2 with h2
  refine rows_inj cols _ _ ?_ ?_ h2
  · intro r hr
    obtain ⟨b, hbm, hr⟩ := List.mem_flatMap.1 hr
    obtain ⟨hn, ht⟩ := (ha b hbm).2
    rw [← hn]
    exact ht r hr
  · intro r hr
    obtain ⟨b, hbm, hr⟩ := List.mem_flatMap.1 hr
    obtain ⟨hn, ht⟩ := (hb b hbm).2
    rw [← hn]
    exact ht r hr

/-! ## C122 -/

/-- What a client does with the header: cut off the media type, undo the percent encoding, decode UTF-8, read JSON. -/
def readHeader (h : List Nat) : Option J :=
  match Store.Http.stripPrefix (Store.Http.ascii "application/json; arrow-schema=") h with
  | none => none
  | some p =>
    match String.fromUTF8? ⟨((Store.Http.percentDecode p).map UInt8.ofNat).toArray⟩ with
    | none => none
    | some s => Parse.all s.toList

/-- The name, type and nullability of a field. -/
def readField (j : J) : Option (Text × J × Bool) :=
  match j.get "name".toList, j.get "data_type".toList, j.get "nullable".toList with
  | some (.str n), some t, some (.bool b) => some (n, t, b)
  | _, _, _ => none

/-- Every element a field. -/
def readFields : List J → Option (List (Text × J × Bool))
  | [] => some []
  | j :: js =>
    match readField j, readFields js with
    | some f, some fs => some (f :: fs)
    | _, _ => none

/-- The fields of a schema. -/
def readSchema (j : J) : Option (List (Text × J × Bool)) :=
  match j.get "fields".toList with
  | some (.arr xs) => readFields xs
  | _ => none

/-- Types are written with proper numbers. -/
def GoodTypes (fs : List Field) : Prop := ∀ f ∈ fs, Good f.type.json

theorem utf8_bytes (t : Text) : Store.Http.IsBytes (utf8 t) := by
  intro b hb
  unfold utf8 at hb
  obtain ⟨u, _, e⟩ := List.mem_map.1 hb
  rw [← e]
  exact UInt8.toNat_lt u

theorem utf8_back (t : Text) : String.fromUTF8? ⟨((utf8 t).map UInt8.ofNat).toArray⟩ = some (String.ofList t) := by
  have h : (⟨((utf8 t).map UInt8.ofNat).toArray⟩ : ByteArray) = (String.ofList t).toByteArray := by
    unfold utf8
    rw [List.map_map]
    have : (UInt8.ofNat ∘ UInt8.toNat) = id := by
      funext u
      simp
    rw [this, List.map_id]
  rw [h]
  unfold String.fromUTF8?
  split
  · rfl
  · next hn => exact absurd (String.ofList t).isValidUTF8 (by simpa using hn)

theorem good_meta (m : List (Text × Text)) : Good (metaJson m) := by
  unfold metaJson Good
  induction m with
  | nil => simp [GoodFields]
  | cons e m ih =>
    rw [List.map_cons]
    unfold GoodFields
    exact ⟨by simp [Good], ih⟩

theorem good_field (f : Field) (h : Good f.type.json) : Good f.json := by
  unfold Field.json
  simp only [Good, GoodFields, h, good_meta, and_self]

theorem good_schema (fs : List Field) (md : List (Text × Text)) (h : GoodTypes fs) : Good (schemaJson fs md) := by
  unfold schemaJson
  simp only [Good, GoodFields, good_meta, and_true]
  induction fs with
  | nil => simp [GoodList]
  | cons f fs ih =>
    rw [List.map_cons]
    unfold GoodList
    exact ⟨good_field f (h f (by simp)), ih (fun f hf => h f (by simp [hf]))⟩

/-- **C122 (header).** The header can always be built: the fallback without a schema is never used. -/
theorem C122_header (fs : List Field) (md : List (Text × Text)) :
    contentType fs md = Store.Http.ascii "application/json; arrow-schema=" ++
      Store.Http.percentEncode (utf8 (enc (schemaJson fs md))) ∧
    ∀ b ∈ contentType fs md, 32 ≤ b ∧ b < 127 := by
  have hb : ∀ b ∈ Store.Http.percentEncode (utf8 (enc (schemaJson fs md))), 32 ≤ b ∧ b < 127 := by
    intro b hb
    have := Store.Http.percentEncode_chars _ (utf8_bytes _) b hb
    simp only [Store.Http.isAlnum, Bool.or_eq_true, Bool.and_eq_true, decide_eq_true_eq] at this
    omega
  have hp : ∀ b ∈ Store.Http.ascii "application/json; arrow-schema=", 32 ≤ b ∧ b < 127 := by decide
  have hv : ∀ b ∈ Store.Http.ascii "application/json; arrow-schema=" ++
      Store.Http.percentEncode (utf8 (enc (schemaJson fs md))), 32 ≤ b ∧ b < 127 := by
    intro b h
    rcases List.mem_append.1 h with h | h
    · exact hp b h
    · exact hb b h
  have hc : contentType fs md = Store.Http.ascii "application/json; arrow-schema=" ++
      Store.Http.percentEncode (utf8 (enc (schemaJson fs md))) := by
    unfold contentType
    simp only
    rw [if_pos]
    unfold headerOk
    rw [List.all_eq_true]
    intro b h
    have := hv b h
    simp only [Bool.or_eq_true, Bool.and_eq_true, decide_eq_true_eq, bne_iff_ne, ne_eq]
    omega
  exact ⟨hc, hc ▸ hv⟩

theorem strip_append (p s : List Nat) : Store.Http.stripPrefix p (p ++ s) = some s := by
  induction p with
  | nil => cases s <;> rfl
  | cons a p ih => rw [List.cons_append, Store.Http.stripPrefix, if_pos rfl, ih]

theorem readHeader_ok (fs : List Field) (md : List (Text × Text)) (h : GoodTypes fs) :
    readHeader (contentType fs md) = some (means (schemaJson fs md)) := by
  unfold readHeader
  rw [(C122_header fs md).1, strip_append]
  simp only
  rw [Store.Http.decode_encode _ (utf8_bytes _), utf8_back]
  simp only [String.toList_ofList]
  exact Parse.all_enc _ (good_schema fs md h)

/-- What a client gets for a type: its name, or its name with its arguments. -/
def typeJ : DT → J
  | .unit n => .str n
  | .one n v => .obj [(n, means v)]
  | .tuple n vs => .obj [(n, .arr (vs.map means))]

theorem meansList_map (vs : List V) : meansList vs = vs.map means := by
  induction vs with
  | nil => rfl
  | cons v vs ih => rw [meansList, ih, List.map_cons]

theorem means_type (d : DT) : means d.json = typeJ d := by
  cases d <;> simp [DT.json, typeJ, means, meansFields, meansList_map]

theorem readFields_ok (fs : List Field) :
    readFields (meansList (fs.map Field.json)) = some (fs.map (fun f => (f.name, typeJ f.type, f.nullable))) := by
  induction fs with
  | nil => rfl
  | cons f fs ih =>
    have hf : readField (means f.json) = some (f.name, typeJ f.type, f.nullable) := by
      unfold Field.json
      simp only [means, meansFields, means_type]
      rfl
    rw [List.map_cons, meansList, readFields, hf, ih]
    rfl

/-- **C122 (schema).** From the header a client gets the names, types and nullability of the columns, in their order,
whatever characters are in the names. -/
theorem C122_schema (fs : List Field) (md : List (Text × Text)) (h : GoodTypes fs) :
    (readHeader (contentType fs md)).bind readSchema =
      some (fs.map (fun f => (f.name, typeJ f.type, f.nullable))) := by
  rw [readHeader_ok fs md h]
  show readSchema (means (schemaJson fs md)) = _
  unfold schemaJson
  simp only [means, meansFields]
  show readFields (meansList (fs.map Field.json)) = _
  exact readFields_ok fs

/-- **C122 (different schemas).** Answers with different columns have different headers. -/
theorem C122_distinct (fs gs : List Field) (md md' : List (Text × Text)) (hf : GoodTypes fs) (hg : GoodTypes gs)
    (h : contentType fs md = contentType gs md') :
    fs.map (fun f => (f.name, typeJ f.type, f.nullable)) = gs.map (fun f => (f.name, typeJ f.type, f.nullable)) := by
  have h1 := C122_schema fs md hf
  rw [h, C122_schema gs md' hg] at h1
  injection h1 with h1
  exact h1.symm

/-- The entries of an object whose values are all texts. -/
def readTexts : List (Text × J) → Option (List (Text × Text))
  | [] => some []
  | (k, .str v) :: rest => (readTexts rest).map ((k, v) :: ·)
  | _ :: _ => none

/-- The metadata of a schema or of a field. -/
def readMeta (j : J) : Option (List (Text × Text)) :=
  match j.get "metadata".toList with
  | some (.obj es) => readTexts es
  | _ => none

/-- The metadata of each field. -/
def readFieldMetas (j : J) : Option (List (Option (List (Text × Text)))) :=
  match j.get "fields".toList with
  | some (.arr xs) => some (xs.map readMeta)
  | _ => none

theorem readTexts_ok (m : List (Text × Text)) : readTexts (meansFields (m.map fun e => (e.1, .text e.2))) = some m := by
  induction m with
  | nil => rfl
  | cons e m ih => simp [meansFields, means, readTexts, ih]

/-- **C122 (metadata).** The header also gives the metadata of the result and of each column back. -/
theorem C122_metadata (fs : List Field) (md : List (Text × Text)) (h : GoodTypes fs) :
    (readHeader (contentType fs md)).bind readMeta = some md ∧
    (readHeader (contentType fs md)).bind readFieldMetas = some (fs.map fun f => some f.metadata) := by
  rw [readHeader_ok fs md h]
  refine ⟨?_, ?_⟩
  · show readMeta (means (schemaJson fs md)) = _
    unfold schemaJson metaJson
    simp only [means, meansFields]
    exact readTexts_ok md
  · show readFieldMetas (means (schemaJson fs md)) = _
    unfold schemaJson
    simp only [means, meansFields]
    show some ((meansList (fs.map Field.json)).map readMeta) = _
    rw [meansList_map, List.map_map, List.map_map]
    congr 1
    apply List.map_congr_left
    intro f _
    simp only [Function.comp]
    unfold Field.json metaJson
    simp only [means, meansFields]
    exact readTexts_ok f.metadata

/-! ### Size of the header -/

/-- Bytes a text takes in the header. -/
def cost (t : Text) : Nat := (Store.Http.percentEncode (utf8 t)).length

theorem percentEncode_append (a b : List Nat) :
    Store.Http.percentEncode (a ++ b) = Store.Http.percentEncode a ++ Store.Http.percentEncode b := by
  induction a with
  | nil => rfl
  | cons x a ih => rw [List.cons_append, Store.Http.percentEncode, ih, Store.Http.percentEncode, List.append_assoc]

theorem utf8_append (a b : Text) : utf8 (a ++ b) = utf8 a ++ utf8 b := by
  unfold utf8
  simp

theorem cost_append (a b : Text) : cost (a ++ b) = cost a + cost b := by
  unfold cost
  rw [utf8_append, percentEncode_append, List.length_append]

theorem field_text (f : Field) : enc f.json = "{\"name\":\"".toList ++ (f.name.flatMap escChar ++ ("\",\"data_type\":".toList ++
    (enc f.type.json ++ (",\"nullable\":".toList ++ (enc (.bool f.nullable) ++ (",\"dict_id\":".toList ++
    (enc (.int f.dictId) ++ (",\"dict_is_ordered\":".toList ++ (enc (.bool f.ordered) ++ (",\"metadata\":".toList ++
    (enc (metaJson f.metadata) ++ "}".toList))))))))))) := by
  unfold Field.json
  simp only [enc, encFields, encFieldsMore, strText, List.cons_append, List.append_assoc, List.nil_append, List.append_nil]
  rfl

theorem cost_field (f : Field) : 140 ≤ cost (enc f.json) := by
  rw [field_text]
  simp only [cost_append]
  have h1 : cost "{\"name\":\"".toList = 19 := by decide +kernel
  have h2 : cost "\",\"data_type\":".toList = 26 := by decide +kernel
  have h3 : cost ",\"nullable\":".toList = 20 := by decide +kernel
  have h4 : cost ",\"dict_id\":".toList = 21 := by decide +kernel
  have h5 : cost ",\"dict_is_ordered\":".toList = 31 := by decide +kernel
  have h6 : cost ",\"metadata\":".toList = 20 := by decide +kernel
  have h7 : cost "}".toList = 3 := by decide +kernel
  omega

theorem cost_cons (c : Char) (t : Text) : cost t ≤ cost (c :: t) := by
  have := cost_append [c] t
  rw [List.singleton_append] at this
  omega

theorem cost_more (fs : List Field) : 140 * fs.length ≤ cost (encListMore (fs.map Field.json)) := by
  induction fs with
  | nil => simp
  | cons f fs ih =>
    rw [List.map_cons, encListMore, List.length_cons]
    have h1 := cost_cons ',' (enc f.json ++ encListMore (fs.map Field.json))
    rw [cost_append] at h1
    have := cost_field f
    omega

/-- **C122 (size).** Every column takes at least 140 bytes of the header, so that answers with 59 or more columns do not
pass clients and proxies that allow 8 KiB for the headers. -/
theorem C122_size (fs : List Field) (md : List (Text × Text)) : 140 * fs.length ≤ (contentType fs md).length := by
  rw [(C122_header fs md).1, List.length_append]
  have h : 140 * fs.length ≤ cost (encList (fs.map Field.json)) := by
    cases fs with
    | nil => simp
    | cons f fs =>
      rw [List.map_cons, encList, cost_append, List.length_cons]
      have := cost_more fs
      have := cost_field f
      omega
  have e : enc (schemaJson fs md) = "{\"fields\":[".toList ++ (encList (fs.map Field.json) ++
      ("],\"metadata\":".toList ++ (enc (metaJson md) ++ "}".toList))) := by
    unfold schemaJson
    simp only [enc, encFields, encFieldsMore, strText, List.cons_append, List.append_assoc, List.nil_append,
      List.append_nil]
    rfl
  have hc : cost (encList (fs.map Field.json)) ≤ cost (enc (schemaJson fs md)) := by
    rw [e, cost_append, cost_append]
    omega
  unfold cost at h hc
  omega

/-! ## Concrete cases -/

namespace Demo

/-- A result with awkward names and values: quotes, line ends, control characters, letters beyond ASCII. -/
def rows : List Batch :=
  [⟨["a\"b".toList, "ö\n".toList], true, [[.int (-17), .text "x\\\n\u0001é".toList], [.null, .list [.bool true, .int 0]]]⟩,
   ⟨["a\"b".toList, "ö\n".toList], true, []⟩,
   ⟨["a\"b".toList, "ö\n".toList], true, [[.int 9007199254740993, .float (some "1.5e-7".toList)]]⟩]

example : ∀ b ∈ rows, Rows b := by
  intro b hb
  simp only [rows, List.mem_cons, List.not_mem_nil, or_false] at hb
  rcases hb with e | e | e <;> subst e <;> refine ⟨rfl, ?_⟩ <;> simp [GoodList, Good]
  decide

/-- The text of the answer. -/
example : String.ofList (body (rows.map .ok)) =
    "{\"a\\\"b\":-17,\"ö\\n\":\"x\\\\\\n\\u0001é\"}\n{\"a\\\"b\":null,\"ö\\n\":[true,0]}\n{\"a\\\"b\":9007199254740993,\"ö\\n\":1.5e-7}\n" := by
  decide +kernel

/-- An answer that breaks off: the first batch, then the message. -/
example : String.ofList (body [.ok ⟨["a".toList], true, [[.int 1]]⟩, .error ⟨.divideByZero, []⟩]) =
    "{\"a\":1}\nDivide by zero error" := by
  decide +kernel

/-- A column without an encoder. -/
example : batchToJson (.ok ⟨["a".toList], false, [[.int 1]]⟩) =
    .error ⟨.json, "Unsupported data type for JSON encoding".toList⟩ := rfl

/-- A schema with a parametrised type and a name beyond ASCII. -/
def schema : List Field :=
  [⟨"ö".toList, .unit "Utf8".toList, true, 0, false, []⟩,
   ⟨"d".toList, .tuple "Decimal128".toList [.int 38, .int 10], false, 0, false, []⟩]

example : GoodTypes schema := by
  intro f hf
  simp only [schema, List.mem_cons, List.not_mem_nil, or_false] at hf
  rcases hf with e | e <;> subst e <;> simp [DT.json, Good, GoodFields, GoodList]

example : (contentType schema []).take 60 =
    Store.Http.ascii "application/json; arrow-schema=%7B%22fields%22%3A%5B%7B%22na" := by
  decide +kernel

/-- The reader is not fooled: other texts are refused. -/
example : (readBody "{\"a\":1}\n{\"a\":2".toList).isNone ∧ (readBody "{\"a\":01}\n".toList).isNone ∧
    (readBody "{\"a\":1}{\"a\":1}\n".toList).isNone ∧ (readBody "{\"a\":\"\t\"}\n".toList).isNone := by
  decide +kernel

end Demo

end Seafowl.HttpJson
