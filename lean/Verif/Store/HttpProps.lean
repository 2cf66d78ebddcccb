import Verif.Store.Http

/-!
# HTTP ranges and URLs (C54, C55)
-/

namespace Seafowl.Store.Http

/-! ### What a Range header means (RFC 9110, 14.1.2) -/

/-- A decimal number at the start of a text: its value and the rest. -/
def readNumber : List Nat → Option Nat → Option (Nat × List Nat)
  | c :: cs, acc =>
    if 48 ≤ c ∧ c ≤ 57 then readNumber cs (some (10 * acc.getD 0 + (c - 48)))
    else acc.map (fun n => (n, c :: cs))
  | [], acc => acc.map (fun n => (n, []))

/-- `bytes=first-last` with `first ≤ last`; both positions are included. -/
def parseRange (h : List Nat) : Option (Nat × Nat) :=
  match stripPrefix (ascii "bytes=") h with
  | none => none
  | some r =>
    match readNumber r none with
    | some (first, 45 :: r2) =>
      match readNumber r2 none with
      | some (last, []) => if first ≤ last then some (first, last) else none
      | _ => none
    | _ => none

/-- A server that honours ranges for an object: 206 with the bytes at the positions from `first` to
`last` that exist, 416 if there are none; a header that is not a range is ignored. -/
def honest (obj : List Nat) (h : List Nat) : Option Response :=
  match parseRange h with
  | some (first, last) =>
    if first < obj.length then some ⟨206, (obj.drop first).take (last + 1 - first)⟩ else some ⟨416, []⟩
  | none => some ⟨200, obj⟩

theorem readNumber_decimal_tail (n : Nat) : ∀ (acc : Option Nat) (tail : List Nat), ∃ k, 0 < k ∧
    readNumber (decimal n ++ tail) acc = readNumber tail (some (k * acc.getD 0 + n)) := by
  induction n using Nat.strongRecOn with
  | _ n ih2 =>
    intro acc tail
    rw [decimal]
    split
    · refine ⟨10, by omega, ?_⟩
      simp only [List.cons_append, List.nil_append, readNumber]
      rw [if_pos (by omega)]
      simp
    · obtain ⟨k, hk, h⟩ := ih2 (n / 10) (by omega) acc ([48 + n % 10] ++ tail)
      refine ⟨10 * k, by omega, ?_⟩
      rw [List.append_assoc, h]
      simp only [List.cons_append, List.nil_append, readNumber, Option.getD_some]
      rw [if_pos (by omega)]
      congr 2
      have : 10 * (k * acc.getD 0) = 10 * k * acc.getD 0 := (Nat.mul_assoc 10 k _).symm
      omega

theorem readNumber_decimal (n : Nat) (acc : Option Nat) (rest : List Nat)
    (hr : ∀ c cs, rest = c :: cs → ¬ (48 ≤ c ∧ c ≤ 57)) : ∃ k, 0 < k ∧
    readNumber (decimal n ++ rest) acc = some (k * acc.getD 0 + n, rest) := by
  obtain ⟨k, hk, h⟩ := readNumber_decimal_tail n acc rest
  refine ⟨k, hk, ?_⟩
  rw [h]
  cases rest with
  | nil => rfl
  | cons c cs => simp only [readNumber, if_neg (hr c cs rfl)]; rfl

theorem stripPrefix_append (p s : List Nat) : stripPrefix p (p ++ s) = some s := by
  induction p with
  | nil => rfl
  | cons c cs ih => simp [stripPrefix, ih]

theorem parseRange_header (a b : Nat) :
    parseRange (ascii "bytes=" ++ decimal a ++ ascii "-" ++ decimal b) = if a ≤ b then some (a, b) else none := by
  simp only [parseRange]
  rw [List.append_assoc, List.append_assoc, stripPrefix_append]
  obtain ⟨k, _, h⟩ := readNumber_decimal a none (ascii "-" ++ decimal b) (by
    intro c cs hc
    have : (45 : Nat) = c := by
      have h' : (45 :: decimal b : List Nat) = c :: cs := hc
      injection h'
    omega)
  simp only [h, Option.getD_none, Nat.mul_zero, Nat.zero_add]
  obtain ⟨k2, _, h2⟩ := readNumber_decimal b none [] (by intro c cs hc; cases hc)
  rw [List.append_nil] at h2
  have e : (ascii "-" ++ decimal b : List Nat) = 45 :: decimal b := rfl
  simp only [e, h2, Option.getD_none, Nat.mul_zero, Nat.zero_add]

/-- **C54**: the header of a read of `[start, stop)` denotes exactly these positions. -/
theorem C54_header (start stop : Nat) (h : start < stop) :
    ∃ t, rangeHeader start stop = some t ∧ ∃ first last, parseRange t = some (first, last) ∧
      ∀ i, (first ≤ i ∧ i ≤ last) ↔ (start ≤ i ∧ i < stop) := by
  simp only [rangeHeader]
  rw [if_neg (by omega)]
  refine ⟨_, rfl, start, stop - 1, ?_, fun i => by omega⟩
  rw [parseRange_header, if_pos (by omega)]

/-- **C54, partial**: with a server that honours ranges, a read of a non-empty range that starts inside
the object returns exactly its bytes (up to the end of the object). -/
theorem C54_exact_partial (obj : List Nat) (start stop : Nat) (h : start < stop) (hin : start < obj.length) :
    getRange (honest obj) start stop = .ok ((obj.drop start).take (stop - start)) := by
  simp only [getRange, rangeHeader]
  rw [if_neg (by omega)]
  simp only [send, honest]
  rw [parseRange_header, if_pos (by omega)]
  simp only [hin, if_true]
  rw [if_neg (by omega)]
  simp only [if_true]
  rw [show stop - 1 + 1 - start = stop - start by omega]

/-- **C54**: a read that starts behind the end is an error. -/
theorem C54_past_end (obj : List Nat) (start stop : Nat) (h : start < stop) (hout : obj.length ≤ start) :
    getRange (honest obj) start stop = .err := by
  simp only [getRange, rangeHeader]
  rw [if_neg (by omega)]
  simp only [send, honest]
  rw [parseRange_header, if_pos (by omega)]
  have : ¬ start < obj.length := by omega
  simp [this]

/-- **C54**: whatever the server does, data is only returned from an answer with status 206; a server
that ignores the range (200) or refuses it is an error. -/
theorem C54_only_partial_content (server : List Nat → Option Response) (start stop : Nat) (d : List Nat)
    (h : getRange server start stop = .ok d) :
    ∃ t, rangeHeader start stop = some t ∧ server t = some ⟨206, d⟩ := by
  simp only [getRange] at h
  split at h
  · cases h
  · next t ht =>
    refine ⟨t, ht, ?_⟩
    split at h
    · cases h
    · next r hs =>
      split at h
      · next h206 =>
        injection h with h
        simp only [send] at hs
        split at hs
        · cases hs
        · next r' hr =>
          split at hs
          · cases hs
          · injection hs with hs
            subst hs
            rw [hr]
            cases r'
            simp only at h206 h
            rw [h206, h]
      · cases h

/-- **C54 is violated** by servers whose 206 answer is for another range: the code does not look at
`Content-Range` or at the length of the body. -/
theorem C54_violated_other_range : ∃ server : List Nat → Option Response,
    getRange server 2 4 = .ok [7] := ⟨fun _ => some ⟨206, [7]⟩, by decide⟩

/-- **C54 is violated by every 206 answer**: whatever the server puts into it is taken for the
requested bytes. -/
theorem C54_violated_always (server : List Nat → Option Response) (start stop : Nat) (d : List Nat) :
    getRange server start stop = .ok d ↔
      ∃ t, rangeHeader start stop = some t ∧ server t = some ⟨206, d⟩ := by
  refine ⟨C54_only_partial_content server start stop d, ?_⟩
  rintro ⟨t, h1, h2⟩
  simp [getRange, send, h1, h2]

/-- Empty ranges: a panic at 0 and otherwise an error (the header is not a range, so that the server
answers 200), where the backing stores return no bytes. -/
theorem C54_empty_range (obj : List Nat) (start : Nat) :
    getRange (honest obj) start start = if start = 0 then .panic else .err := by
  by_cases h : start = 0
  · subst h; rfl
  · simp only [getRange, rangeHeader]
    rw [if_neg h]
    simp only [send, honest]
    rw [parseRange_header, if_neg (by omega)]
    simp [h]

example : getRange (honest [10, 11, 12, 13, 14]) 1 4 = .ok [11, 12, 13] := by
  rw [C54_exact_partial _ _ _ (by decide) (by decide)]; rfl

example : decimal 1205 = ascii "1205" := by
  simp [decimal, ascii]

/-! ### C55 -/

/-- A text of bytes. -/
def IsBytes (l : List Nat) : Prop := ∀ b ∈ l, b < 256

theorem hexValue_hexDigit (n : Nat) (h : n < 16) : hexValue (hexDigit n) = some n := by
  simp only [hexValue, hexDigit]
  split
  · rw [if_pos (by omega)]; congr 1; omega
  · rw [if_neg (by omega), if_pos (by omega)]; congr 1; omega

theorem percentDecode_cons_ne (c : Nat) (hc : c ≠ 37) (rest : List Nat) :
    percentDecode (c :: rest) = c :: percentDecode rest := by
  rw [percentDecode]
  intro a b r h1 h2
  exact hc h1

theorem percentDecode_esc (x y : Nat) (hx : x < 16) (hy : y < 16) (rest : List Nat) :
    percentDecode (37 :: hexDigit x :: hexDigit y :: rest) = (16 * x + y) :: percentDecode rest := by
  rw [percentDecode]
  simp [hexValue_hexDigit x hx, hexValue_hexDigit y hy]

theorem decode_encode (s : List Nat) (h : IsBytes s) : percentDecode (percentEncode s) = s := by
  induction s with
  | nil => simp [percentEncode, percentDecode]
  | cons b bs ih =>
    have hb : b < 256 := h b (by simp)
    have ih := ih (fun c hc => h c (by simp [hc]))
    simp only [percentEncode]
    cases ha : isAlnum b with
    | true =>
      have hne : b ≠ 37 := by rintro rfl; revert ha; decide
      simp only [if_true, List.cons_append, List.nil_append]
      rw [percentDecode_cons_ne b hne, ih]
    | false =>
      simp only [Bool.false_eq_true, if_false, List.cons_append, List.nil_append]
      rw [percentDecode_esc _ _ (by omega) (by omega), ih]
      congr 1
      omega

theorem percentEncode_chars (s : List Nat) (h : IsBytes s) : ∀ c ∈ percentEncode s, isAlnum c = true ∨ c = 37 := by
  induction s with
  | nil => intro c hc; cases hc
  | cons b bs ih =>
    intro c hc
    have hb : b < 256 := h b (by simp)
    simp only [percentEncode, List.mem_append] at hc
    rcases hc with hc | hc
    · have hhex : ∀ n, n < 16 → isAlnum (hexDigit n) = true := by decide
      cases ha : isAlnum b with
      | true =>
        rw [ha] at hc
        simp only [if_true, List.mem_singleton] at hc
        subst hc; exact Or.inl ha
      | false =>
        rw [ha] at hc
        simp only [Bool.false_eq_true, if_false, List.mem_cons, List.not_mem_nil, or_false] at hc
        rcases hc with rfl | rfl | rfl
        · exact Or.inr rfl
        · exact Or.inl (hhex _ (by omega))
        · exact Or.inl (hhex _ (by omega))
    · exact ih (fun c hc => h c (by simp [hc])) c hc

/-- What the encoded part of a prepared URL is made of: letters, digits and `%`.  In particular it has
no `/`, `?` or `#`, so it is a single path segment that no URL or path normalisation changes. -/
theorem C55_one_segment (s : List Nat) (h : IsBytes s) : ∀ c ∈ percentEncode s,
    (48 ≤ c ∧ c ≤ 57) ∨ (65 ≤ c ∧ c ≤ 90) ∨ (97 ≤ c ∧ c ≤ 122) ∨ c = 37 := by
  intro c hc
  have := percentEncode_chars s h c hc
  simp only [isAlnum, Bool.or_eq_true, Bool.and_eq_true, decide_eq_true_eq] at this
  omega

theorem stripPrefix_spec {p s r : List Nat} (h : stripPrefix p s = some r) : s = p ++ r := by
  induction p generalizing s with
  | nil => simp [stripPrefix] at h; simp [h]
  | cons c cs ih =>
    cases s with
    | nil => simp [stripPrefix] at h
    | cons d ds =>
      simp only [stripPrefix] at h
      split at h
      · next hcd => rw [hcd, ih h]; rfl
      · cases h

theorem requested_eq (decode : List Nat → List Nat) (scheme l : List Nat)
    (hs : scheme = ascii "http" ∨ scheme = ascii "https") :
    requested decode (scheme ++ ascii "://" ++ l) =
      some (scheme ++ ascii "://" ++ percentDecode (decode (percentEncode l))) := by
  rcases hs with rfl | rfl
  · have h1 : stripPrefix (ascii "http://") (ascii "http" ++ ascii "://" ++ l) = some l :=
      stripPrefix_append (ascii "http://") l
    simp only [requested, prepareUrl, h1, route, stripPrefix_append, getUri]
  · have h1 : stripPrefix (ascii "http://") (ascii "https" ++ ascii "://" ++ l) = none := rfl
    have h2 : stripPrefix (ascii "https://") (ascii "https" ++ ascii "://" ++ l) = some l :=
      stripPrefix_append (ascii "https://") l
    have h3 : stripPrefix (ascii "http://anyhost/") (ascii "https://anyhost/" ++ percentEncode l) = none := rfl
    simp only [requested, prepareUrl, h1, h2, route, h3, stripPrefix_append, getUri]

/-- **C55**: if the library hands the path of the prepared URL over verbatim, the URL that is requested
is exactly the URL of the table. -/
theorem C55_roundtrip_partial (scheme l : List Nat) (hl : IsBytes l)
    (hs : scheme = ascii "http" ∨ scheme = ascii "https") :
    requested id (scheme ++ ascii "://" ++ l) = some (scheme ++ ascii "://" ++ l) := by
  rw [requested_eq id scheme l hs]
  simp only [id]
  rw [decode_encode l hl]

/-- Locations with other schemes are left alone. -/
theorem C55_other_schemes (location : List Nat) (h1 : ∀ l, location ≠ ascii "http://" ++ l)
    (h2 : ∀ l, location ≠ ascii "https://" ++ l) : prepareUrl location = none := by
  simp only [prepareUrl]
  split
  · next l hl => exact absurd (stripPrefix_spec hl) (h1 l)
  · split
    · next l hl => exact absurd (stripPrefix_spec hl) (h2 l)
    · rfl

/-- **C55**: two different HTTP locations are never prepared to the same URL. -/
theorem C55_injective (scheme scheme' l l' : List Nat) (hl : IsBytes l) (hl' : IsBytes l')
    (hs : scheme = ascii "http" ∨ scheme = ascii "https") (hs' : scheme' = ascii "http" ∨ scheme' = ascii "https")
    (h : prepareUrl (scheme ++ ascii "://" ++ l) = prepareUrl (scheme' ++ ascii "://" ++ l')) :
    scheme ++ ascii "://" ++ l = scheme' ++ ascii "://" ++ l' := by
  have a := C55_roundtrip_partial scheme l hl hs
  have b := C55_roundtrip_partial scheme' l' hl' hs'
  simp only [requested] at a b
  rw [h] at a
  rw [a] at b
  injection b

/-- If instead the library decodes the path once itself, `get_uri` decodes a second time and the URL that
is requested is the decoded one ... -/
theorem C55_decoded_twice (scheme l : List Nat) (hl : IsBytes l)
    (hs : scheme = ascii "http" ∨ scheme = ascii "https") :
    requested percentDecode (scheme ++ ascii "://" ++ l) = some (scheme ++ ascii "://" ++ percentDecode l) := by
  rw [requested_eq percentDecode scheme l hs, decode_encode l hl]

/-- ... which is wrong for URLs with escapes: `http://h/a%2Fb` becomes `http://h/a/b`. -/
theorem C55_violated_if_decoded :
    requested percentDecode (ascii "http://h/a%2Fb") = some (ascii "http://h/a/b") := by
  have := C55_decoded_twice (ascii "http") (ascii "h/a%2Fb") (by unfold IsBytes; decide) (Or.inl rfl)
  have e : percentDecode (ascii "h/a%2Fb") = ascii "h/a/b" := by
    simp [ascii, percentDecode, hexValue]
  rw [e] at this
  exact this

/-- The text has an escape: `%` and two hexadecimal digits. -/
def HasEscape (l : List Nat) : Prop :=
  ∃ p a b r, l = p ++ 37 :: a :: b :: r ∧ hexValue a ≠ none ∧ hexValue b ≠ none

theorem percentDecode_length (l : List Nat) : (percentDecode l).length ≤ l.length := by
  induction l using percentDecode.induct with
  | case1 => simp [percentDecode]
  | case2 a b rest x y hx hy ih =>
    simp only [percentDecode, hx, hy, List.length_cons]
    omega
  | case3 a b rest hne ih =>
    rw [percentDecode]
    split
    · rename_i x y hx hy
      exact absurd hy (hne x y hx)
    · simp only [List.length_cons] at ih ⊢
      omega
  | case4 c rest hne ih =>
    rw [percentDecode.eq_3 c rest hne]
    simp only [List.length_cons]
    omega

theorem HasEscape.cons {c : Nat} {l : List Nat} (h : HasEscape l) : HasEscape (c :: l) := by
  obtain ⟨p, a, b, r, rfl, ha, hb⟩ := h
  exact ⟨c :: p, a, b, r, rfl, ha, hb⟩

/-- Decoding changes exactly the texts with escapes. -/
theorem percentDecode_fixed (l : List Nat) : percentDecode l = l ↔ ¬ HasEscape l := by
  induction l using percentDecode.induct with
  | case1 =>
    simp only [percentDecode, true_iff]
    rintro ⟨p, a, b, r, h, _⟩
    simp at h
  | case2 a b rest x y hx hy ih =>
    constructor
    · intro h
      have := congrArg List.length h
      simp only [percentDecode, hx, hy, List.length_cons] at this
      have := percentDecode_length rest
      omega
    · intro h
      exact absurd ⟨[], a, b, rest, rfl, by simp [hy], by simp [hx]⟩ h
  | case3 a b rest hne ih =>
    have e : percentDecode (37 :: a :: b :: rest) = 37 :: percentDecode (a :: b :: rest) := by
      rw [percentDecode]
      split
      · rename_i x y hx hy
        exact absurd hy (hne x y hx)
      · rfl
    rw [e]
    simp only [List.cons.injEq, true_and]
    rw [ih]
    refine not_congr ?_
    constructor
    · exact HasEscape.cons
    · rintro ⟨p, a', b', r, h, ha, hb⟩
      cases p with
      | nil =>
        simp only [List.nil_append, List.cons.injEq, true_and] at h
        obtain ⟨rfl, rfl, rfl⟩ := h
        cases hx : hexValue a with
        | none => exact absurd hx ha
        | some x =>
          cases hy : hexValue b with
          | none => exact absurd hy hb
          | some y => exact absurd hy (hne x y hx)
      | cons c p =>
        simp only [List.cons_append, List.cons.injEq] at h
        exact ⟨p, a', b', r, h.2, ha, hb⟩
  | case4 c rest hne ih =>
    rw [percentDecode.eq_3 c rest hne]
    simp only [List.cons.injEq, true_and]
    rw [ih]
    refine not_congr ?_
    constructor
    · exact HasEscape.cons
    · rintro ⟨p, a', b', r, h, ha, hb⟩
      cases p with
      | nil =>
        simp only [List.nil_append, List.cons.injEq] at h
        exact absurd h.2 (fun h2 => hne a' b' r h.1 h2)
      | cons c p =>
        simp only [List.cons_append, List.cons.injEq] at h
        exact ⟨p, a', b', r, h.2, ha, hb⟩

/-- **C55 (if the library decodes)**: the URL requested is the URL of the table exactly if that has
no escape in it. -/
theorem C55_decoded_iff (scheme l : List Nat) (hl : IsBytes l)
    (hs : scheme = ascii "http" ∨ scheme = ascii "https") :
    requested percentDecode (scheme ++ ascii "://" ++ l) = some (scheme ++ ascii "://" ++ l) ↔ ¬ HasEscape l := by
  rw [C55_decoded_twice scheme l hl hs, Option.some.injEq, List.append_cancel_left_eq, percentDecode_fixed]

example : requested id (ascii "https://bucket.s3.example.com/t.parquet?sig=a%2Fb&x=1") =
    some (ascii "https://bucket.s3.example.com/t.parquet?sig=a%2Fb&x=1") :=
  C55_roundtrip_partial (ascii "https") (ascii "bucket.s3.example.com/t.parquet?sig=a%2Fb&x=1")
    (by unfold IsBytes; decide) (Or.inr rfl)

example : prepareUrl (ascii "http://a.b/c") = some (ascii "http://anyhost/a%2Eb%2Fc") := by decide

end Seafowl.Store.Http
