import Verif.Store.HttpMeta
import Verif.Store.HttpProps

/-!
# Sizes and ranges of HTTP objects (C79)
-/

namespace Seafowl.Store.Http

/-! ### A server that follows RFC 9110 -/

/-- Bytes of a `Content-Range` header: `bytes first-last/length`. -/
def contentRangeText (first last size : Nat) : List Nat :=
  ascii "bytes " ++ decimal first ++ ascii "-" ++ decimal last ++ ascii "/" ++ decimal size

/-- A server of one object that honours ranges, with `HEAD` allowed or forbidden (as for pre-signed S3
URLs). -/
def rfcServer (obj : List Nat) (headAllowed : Bool) : Server where
  head :=
    if headAllowed then
      some ⟨200, { contentLength := some (decimal obj.length), acceptRanges := some (ascii "bytes") }, []⟩
    else some ⟨403, {}, []⟩
  get
    | none => some ⟨200, { contentLength := some (decimal obj.length) }, obj⟩
    | some h =>
      match parseRange h with
      | none => some ⟨200, { contentLength := some (decimal obj.length) }, obj⟩
      | some (first, last) =>
        if first < obj.length then
          some ⟨206, { contentLength := some (decimal ((obj.drop first).take (last + 1 - first)).length)
                       contentRange := some (contentRangeText first (min last (obj.length - 1)) obj.length) },
            (obj.drop first).take (last + 1 - first)⟩
        else some ⟨416, { contentRange := some (ascii "bytes */" ++ decimal obj.length) }, []⟩

/-- A text that denotes a number: decimal digits, possibly after a plus sign. -/
def Denotes (t : List Nat) (n : Nat) : Prop :=
  readNumber t none = some (n, []) ∨ ∃ r, t = 43 :: r ∧ readNumber r none = some (n, [])

/-- The text is the given one in small letters, but for the case of its letters. -/
def SameLetters : List Nat → List Nat → Prop
  | [], [] => True
  | x :: xs, c :: cs => (x = c ∨ x + 32 = c) ∧ SameLetters xs cs
  | _, _ => False

/-! ### lemmas -/

theorem lower_same (a cs : List Nat) (h : ∀ c ∈ cs, 97 ≤ c ∧ c ≤ 122) : lower a = cs ↔ SameLetters a cs := by
  induction a generalizing cs with
  | nil => cases cs <;> simp [lower, SameLetters]
  | cons x xs ih =>
    cases cs with
    | nil => simp [lower, SameLetters]
    | cons c cs =>
      have hc := h c (by simp)
      have := ih cs (fun y hy => h y (by simp [hy]))
      simp only [lower] at this
      simp only [lower, List.map_cons, List.cons.injEq, SameLetters, this]
      constructor
      · rintro ⟨h1, h2⟩
        refine ⟨?_, h2⟩
        split at h1 <;> omega
      · rintro ⟨h1, h2⟩
        refine ⟨?_, h2⟩
        split <;> omega

theorem lower_bytes (a : List Nat) : lower a = ascii "bytes" ↔ SameLetters a (ascii "bytes") :=
  lower_same a _ (by decide)

theorem decimal_digits (n : Nat) : ∀ c ∈ decimal n, isDigit c = true := by
  induction n using Nat.strongRecOn with
  | _ n ih =>
    intro c hc
    rw [decimal] at hc
    split at hc
    · simp only [List.mem_singleton] at hc; subst hc; simp [isDigit]; omega
    · rw [List.mem_append] at hc
      rcases hc with hc | hc
      · exact ih (n / 10) (by omega) c hc
      · simp only [List.mem_singleton] at hc; subst hc; simp [isDigit]; omega

theorem decimal_ne_nil (n : Nat) : decimal n ≠ [] := by
  rw [decimal]; split <;> simp

theorem digitsValue_decimal (n : Nat) : digitsValue (decimal n) = n := by
  induction n using Nat.strongRecOn with
  | _ n ih =>
    rw [decimal]
    split
    · simp [digitsValue]
    · have := ih (n / 10) (by omega)
      simp only [digitsValue, List.foldl_append, List.foldl_cons, List.foldl_nil] at this ⊢
      rw [this]; omega

theorem parseU64_decimal (n : Nat) (h : n < 2 ^ 64) : parseU64 (decimal n) = some n := by
  have hne := decimal_ne_nil n
  have hd := decimal_digits n
  have hm : dropPlus (decimal n) = decimal n := by
    unfold dropPlus
    split
    · next r hr =>
      have := hd 43 (by rw [hr]; simp)
      simp [isDigit] at this
    · rfl
  simp only [parseU64, hm, digitsValue_decimal]
  rw [if_pos]
  simp only [Bool.and_eq_true, decide_eq_true_eq, h, and_true]
  exact ⟨by simp [hne], List.all_eq_true.2 hd⟩

theorem toStr_ok {l : List Nat} (h : ∀ b ∈ l, 32 ≤ b ∧ b < 127) : toStr l = some l := by
  simp only [toStr]
  rw [if_pos]
  rw [List.all_eq_true]
  intro b hb
  have := h b hb
  simp; omega

theorem digit_visible {b : Nat} (h : isDigit b = true) : 32 ≤ b ∧ b < 127 := by
  simp [isDigit] at h; omega

theorem decimal_visible (n : Nat) : ∀ b ∈ decimal n, 32 ≤ b ∧ b < 127 :=
  fun b hb => digit_visible (decimal_digits n b hb)

theorem toStr_decimal (n : Nat) : toStr (decimal n) = some (decimal n) := toStr_ok (decimal_visible n)

theorem takeWhile_digits {d rest : List Nat} (hd : ∀ c ∈ d, isDigit c = true)
    (hr : ∀ c cs, rest = c :: cs → isDigit c = false) : (d ++ rest).takeWhile isDigit = d := by
  induction d with
  | nil =>
    cases rest with
    | nil => rfl
    | cons c cs => simp [hr c cs rfl]
  | cons c cs ih =>
    simp only [List.cons_append, List.takeWhile_cons, hd c (by simp), if_true]
    rw [ih (fun x hx => hd x (by simp [hx]))]

theorem dropWhile_digits {d rest : List Nat} (hd : ∀ c ∈ d, isDigit c = true)
    (hr : ∀ c cs, rest = c :: cs → isDigit c = false) : (d ++ rest).dropWhile isDigit = rest := by
  induction d with
  | nil =>
    cases rest with
    | nil => rfl
    | cons c cs => simp [hr c cs rfl]
  | cons c cs ih =>
    simp only [List.cons_append, List.dropWhile_cons, hd c (by simp), if_true]
    rw [ih (fun x hx => hd x (by simp [hx]))]

theorem optSpace_decimal (n : Nat) (rest : List Nat) : optSpace (decimal n ++ rest) = decimal n ++ rest := by
  have hne := decimal_ne_nil n
  have hd := decimal_digits n
  cases h : decimal n with
  | nil => exact absurd h hne
  | cons c cs =>
    have := hd c (by rw [h]; simp)
    simp only [List.cons_append, optSpace]
    rw [if_neg]
    simp [isDigit] at this
    simp [isSpace]; omega

theorem dropWhile_space_decimal (n : Nat) (rest : List Nat) :
    (decimal n ++ rest).dropWhile isSpace = decimal n ++ rest := by
  have hne := decimal_ne_nil n
  have hd := decimal_digits n
  cases h : decimal n with
  | nil => exact absurd h hne
  | cons c cs =>
    have := hd c (by rw [h]; simp)
    simp only [List.cons_append, List.dropWhile_cons]
    rw [if_neg]
    simp [isDigit] at this
    simp [isSpace]; omega

theorem isEmpty_decimal (n : Nat) : (decimal n).isEmpty = false := by
  have := decimal_ne_nil n
  cases h : decimal n with
  | nil => exact absurd h this
  | cons _ _ => rfl

/-- Matching `bytes first-` followed by anything. -/
theorem re_start (first : Nat) (tail : List Nat) :
    contentRangeRe (ascii "bytes " ++ (decimal first ++ 45 :: tail)) =
      (let r3 := optSpace ((optSpace tail).dropWhile isDigit)
       let r4 := optSpace (optSlash r3)
       if !(r4.takeWhile isDigit).isEmpty then some (some (r4.takeWhile isDigit))
          else match r4 with
            | 42 :: _ => some (some [42])
            | _ => some none) := by
  have e1 : stripPrefix (ascii "bytes") (ascii "bytes " ++ (decimal first ++ 45 :: tail)) =
      some (32 :: (decimal first ++ 45 :: tail)) := rfl
  have e2 : (32 :: (decimal first ++ 45 :: tail)).dropWhile isSpace = decimal first ++ 45 :: tail := by
    rw [List.dropWhile_cons, if_pos (by decide), dropWhile_space_decimal]
  have e3 : (decimal first ++ 45 :: tail).takeWhile isDigit = decimal first :=
    takeWhile_digits (decimal_digits first) (by intro c cs h; injection h with h; subst h; decide)
  have e4 : (decimal first ++ 45 :: tail).dropWhile isDigit = 45 :: tail :=
    dropWhile_digits (decimal_digits first) (by intro c cs h; injection h with h; subst h; decide)
  have e5 : optSpace (45 :: tail) = 45 :: tail := rfl
  simp only [contentRangeRe, e1, e2, e3, e4, e5]
  rw [if_neg (by simp), isEmpty_decimal]
  rfl

theorem re_full (first last size : Nat) :
    contentRangeRe (contentRangeText first last size) = some (some (decimal size)) := by
  have e0 : contentRangeText first last size =
      ascii "bytes " ++ (decimal first ++ 45 :: (decimal last ++ 47 :: decimal size)) := by
    simp [contentRangeText, ascii]
  rw [e0, re_start, optSpace_decimal]
  have e1 : (decimal last ++ 47 :: decimal size).dropWhile isDigit = 47 :: decimal size :=
    dropWhile_digits (decimal_digits last) (by intro c cs h; injection h with h; subst h; decide)
  have e2 : optSpace (47 :: decimal size) = 47 :: decimal size := rfl
  have e3 : optSpace (decimal size) = decimal size := by
    have := optSpace_decimal size []; simpa using this
  have e4 : (decimal size).takeWhile isDigit = decimal size := by
    have := takeWhile_digits (rest := []) (decimal_digits size) (by intro c cs h; cases h)
    simpa using this
  have e5 : optSlash (47 :: decimal size) = decimal size := rfl
  simp only [e1, e2, e5, e3, e4, isEmpty_decimal]
  rfl

theorem re_no_size (first last : Nat) :
    contentRangeRe (ascii "bytes " ++ decimal first ++ ascii "-" ++ decimal last) = some none := by
  have e0 : ascii "bytes " ++ decimal first ++ ascii "-" ++ decimal last =
      ascii "bytes " ++ (decimal first ++ 45 :: decimal last) := by
    simp [ascii]
  rw [e0, re_start]
  have e1 : optSpace (decimal last) = decimal last := by
    have := optSpace_decimal last []; simpa using this
  have e2 : (decimal last).dropWhile isDigit = [] := by
    have := dropWhile_digits (rest := []) (decimal_digits last) (by intro c cs h; cases h)
    simpa using this
  simp only [e1, e2]
  rfl

theorem contentRangeText_visible (a b c : Nat) : ∀ x ∈ contentRangeText a b c, 32 ≤ x ∧ x < 127 := by
  intro x hx
  simp only [contentRangeText, List.mem_append] at hx
  rcases hx with ((((hx | hx) | hx) | hx) | hx) | hx
  · revert x; decide
  · exact decimal_visible _ x hx
  · revert x; decide
  · exact decimal_visible _ x hx
  · revert x; decide
  · exact decimal_visible _ x hx

theorem splitOnce_eq {c : Nat} {l r : List Nat} (h : c ∉ l) : splitOnce c (l ++ c :: r) = some (l, r) := by
  induction l with
  | nil => simp [splitOnce]
  | cons x xs ih =>
    simp only [List.mem_cons, not_or] at h
    simp only [List.cons_append, splitOnce]
    rw [if_neg (Ne.symm h.1), ih h.2]
    rfl

theorem not_mem_decimal {c : Nat} (h : isDigit c = false) (n : Nat) : c ∉ decimal n := by
  intro hm
  rw [decimal_digits n c hm] at h
  cases h

theorem dropWhile_rev_decimal (p : List Nat) (n : Nat) :
    ((p ++ decimal n).reverse.dropWhile isSpace).reverse = p ++ decimal n := by
  have hne := decimal_ne_nil n
  have hd := decimal_digits n
  rw [List.reverse_append]
  cases h : (decimal n).reverse with
  | nil => rw [List.reverse_eq_nil_iff] at h; exact absurd h hne
  | cons c cs =>
    have hc := hd c (by rw [← List.mem_reverse, h]; simp)
    rw [List.cons_append, List.dropWhile_cons, if_neg, ← List.cons_append, ← h, ← List.reverse_append,
      List.reverse_reverse]
    simp [isDigit] at hc
    simp [isSpace]; omega

theorem contentRange_text (a b n : Nat) (ha : a < 2 ^ 64) (hb : b < 2 ^ 64) (hn : n < 2 ^ 64) :
    contentRange (contentRangeText a b n) = some (a, b + 1, n) := by
  have e0 : contentRangeText a b n =
      ascii "bytes " ++ ((decimal a ++ 45 :: decimal b) ++ 47 :: decimal n) := by
    simp [contentRangeText, ascii]
  have et : trim (contentRangeText a b n) = contentRangeText a b n := by
    have e1 : (contentRangeText a b n).dropWhile isSpace = contentRangeText a b n := by
      rw [e0]; rfl
    rw [trim, e1]
    have := dropWhile_rev_decimal (ascii "bytes " ++ decimal a ++ ascii "-" ++ decimal b ++ ascii "/") n
    simpa [contentRangeText] using this
  simp only [contentRange, et]
  rw [e0, stripPrefix_append]
  have h47 : (47 : Nat) ∉ decimal a ++ 45 :: decimal b := by
    simp only [List.mem_append, List.mem_cons, not_or]
    exact ⟨not_mem_decimal (by decide) a, by decide, not_mem_decimal (by decide) b⟩
  simp only [splitOnce_eq h47, splitOnce_eq (not_mem_decimal (c := 45) (by decide) a), parseU64_decimal, ha, hb, hn]

theorem readNumber_digits (d : List Nat) (hd : d.all isDigit = true) (acc : Nat) :
    readNumber d (some acc) = some (d.foldl (fun a c => 10 * a + (c - 48)) acc, []) := by
  induction d generalizing acc with
  | nil => rfl
  | cons c cs ih =>
    simp only [List.all_cons, Bool.and_eq_true] at hd
    have hc : 48 ≤ c ∧ c ≤ 57 := by simpa [isDigit] using hd.1
    simp only [readNumber, hc, and_self, if_true, Option.getD_some, List.foldl_cons]
    exact ih hd.2 _

theorem readNumber_digits_none (d : List Nat) (hd : d.all isDigit = true) (hne : d.isEmpty = false) :
    readNumber d none = some (digitsValue d, []) := by
  cases d with
  | nil => cases hne
  | cons c cs =>
    simp only [List.all_cons, Bool.and_eq_true] at hd
    have hc : 48 ≤ c ∧ c ≤ 57 := by simpa [isDigit] using hd.1
    simp only [readNumber, hc, and_self, if_true, Option.getD_none]
    rw [readNumber_digits _ hd.2]
    rfl

theorem parseU64_denotes {t : List Nat} {n : Nat} (h : parseU64 t = some n) : Denotes t n := by
  have key : ∀ d : List Nat, (!d.isEmpty && d.all isDigit && decide (digitsValue d < 2 ^ 64)) = true →
      readNumber d none = some (digitsValue d, []) := by
    intro d hd
    simp only [Bool.and_eq_true, Bool.not_eq_true'] at hd
    exact readNumber_digits_none d hd.1.2 hd.1.1
  simp only [parseU64] at h
  split at h
  · next hc =>
    injection h with h
    have := key _ hc
    rw [h] at this
    unfold dropPlus at this
    split at this
    · next r => exact Or.inr ⟨r, rfl, this⟩
    · exact Or.inl this
  · cases h

theorem optSpace_suffix (l : List Nat) : optSpace l <:+ l := by
  cases l with
  | nil => exact List.suffix_refl _
  | cons c cs =>
    simp only [optSpace]
    split
    · exact List.suffix_cons c cs
    · exact List.suffix_refl _

theorem stripPrefix_suffix {p s r : List Nat} (h : stripPrefix p s = some r) : r <:+ s := by
  rw [stripPrefix_spec h]; exact List.suffix_append p r

/-- What the expression captures is a part of the text. -/
theorem re_infix {v g : List Nat} (h : contentRangeRe v = some (some g)) : g <:+: v := by
  simp only [contentRangeRe] at h
  split at h
  · cases h
  · next r hr =>
    split at h
    · cases h
    · split at h
      · cases h
      · split at h
        · next r2 hr2 =>
          have s1 : r2 <:+ v := by
            have a : 45 :: r2 <:+ (r.dropWhile isSpace).dropWhile isDigit := by rw [← hr2]; exact optSpace_suffix _
            exact (List.suffix_cons 45 r2).trans (a.trans ((List.dropWhile_suffix _).trans
              ((List.dropWhile_suffix _).trans (stripPrefix_suffix hr))))
          have s2 : optSpace ((optSpace r2).dropWhile isDigit) <:+ v :=
            (optSpace_suffix _).trans ((List.dropWhile_suffix _).trans ((optSpace_suffix _).trans s1))
          generalize optSpace ((optSpace r2).dropWhile isDigit) = r3 at h s2
          have s3 : optSpace (optSlash r3) <:+ v := by
            refine (optSpace_suffix _).trans ?_
            unfold optSlash
            split
            · next r => exact (List.suffix_cons 47 r).trans s2
            · exact s2
          generalize optSpace (optSlash r3) = r4 at h s3
          split at h
          · injection h with h
            injection h with h
            rw [← h]
            exact (List.takeWhile_prefix _).isInfix.trans s3.isInfix
          · split at h
            · injection h with h
              injection h with h
              rw [← h]
              exact (List.prefix_append [42] _).isInfix.trans s3.isInfix
            · cases h
        · cases h

theorem toStr_eq {v t : List Nat} (h : toStr v = some t) : t = v := by
  simp only [toStr] at h
  split at h
  · injection h with h; exact h.symm
  · cases h

/-! ### C79 -/

/-- **C79**: with a server that follows the standard and allows `HEAD`, the reported size is the size of
the object. -/
theorem C79_head (obj : List Nat) (h : obj.length < 2 ^ 64) :
    head (rfcServer obj true) = .ok obj.length := by
  have e1 : toStr (ascii "bytes") = some (ascii "bytes") := by decide
  have e2 : lower (ascii "bytes") = ascii "bytes" := by decide
  simp only [head, rfcServer, sendFull]
  rw [if_pos trivial]
  simp only
  rw [if_neg (by decide)]
  simp only [toStr_decimal, parseU64_decimal _ h, e1, e2, if_true]

/-- **C79**: the unit in `Accept-Ranges` may be written in capitals. -/
theorem C79_head_case (s : Server) (n : Nat) (hn : n < 2 ^ 64) (a data : List Nat) (st : Nat) (hst : st < 400)
    (ha : SameLetters a (ascii "bytes"))
    (h : s.head = some ⟨st, { contentLength := some (decimal n), acceptRanges := some a }, data⟩) :
    head s = .ok n := by
  have hv : toStr a = some a := by
    have hb : ∀ (a cs : List Nat), SameLetters a cs → (∀ c ∈ cs, 97 ≤ c ∧ c ≤ 122) → ∀ b ∈ a, 32 ≤ b ∧ b < 127 := by
      intro a
      induction a with
      | nil => intro _ _ _ b hb; cases hb
      | cons x xs ih =>
        intro cs h hc b hb
        cases cs with
        | nil => exact h.elim
        | cons c cs =>
          rcases List.mem_cons.1 hb with rfl | hb
          · have := hc c (by simp)
            rcases h.1 with h1 | h1 <;> omega
          · exact ih cs h.2 (fun y hy => hc y (by simp [hy])) b hb
    exact toStr_ok (hb _ _ ha (by decide))
  simp only [head, h, sendFull]
  rw [if_neg (by omega)]
  simp only [toStr_decimal, parseU64_decimal _ hn, hv, if_pos ((lower_bytes a).2 ha)]

example : SameLetters (ascii "Bytes") (ascii "bytes") := by
  have h1 : ascii "Bytes" = [66, 121, 116, 101, 115] := by decide
  have h2 : ascii "bytes" = [98, 121, 116, 101, 115] := by decide
  rw [h1, h2]
  simp [SameLetters]

/-- **C79**: if `HEAD` is forbidden, the size of a non-empty object is still found. -/
theorem C79_head_forbidden_partial (obj : List Nat) (h : obj.length < 2 ^ 64) (hne : obj ≠ []) :
    head (rfcServer obj false) = .ok obj.length := by
  have hl : 0 < obj.length := List.length_pos_iff.2 hne
  have hp : parseRange (ascii "bytes=0-0") = some (0, 0) := by decide
  simp only [head, rfcServer, sendFull]
  rw [if_neg (by decide)]
  simp only
  rw [if_pos (by decide)]
  simp only [if_true, headViaGet, hp, if_pos hl, sendFull]
  rw [if_neg (by decide)]
  simp only [toStr_ok (contentRangeText_visible _ _ _), re_full, parseU64_decimal _ h]

/-- A header that is not text makes the request fail, also if the part that matters is readable. -/
example : headViaGet ⟨none, fun _ => some ⟨206, { contentRange := some (ascii "bytes 0-0/5" ++ [127]) }, [1]⟩⟩ = .err := by
  decide

/-- **C79 is violated** for empty objects if `HEAD` is forbidden: the request for the first byte fails. -/
theorem C79_violated_empty : head (rfcServer [] false) = .err := by decide

/-- **C79 is violated** by a panic: a server that forbids `HEAD` and leaves the complete length out of its
`Content-Range` header crashes the request (the comment in the code claims that the group exists). -/
theorem C79_violated_panic (first last : Nat) (s : Server) (e : Full) (r : Full)
    (h1 : s.head = some e) (h403 : e.status = 403)
    (h2 : s.get (some (ascii "bytes=0-0")) = some r) (hr : r.status = 206)
    (hc : r.headers.contentRange = some (ascii "bytes " ++ decimal first ++ ascii "-" ++ decimal last)) :
    head s = .panic := by
  have hv : toStr (ascii "bytes " ++ decimal first ++ ascii "-" ++ decimal last) =
      some (ascii "bytes " ++ decimal first ++ ascii "-" ++ decimal last) := by
    apply toStr_ok
    intro x hx
    simp only [List.mem_append] at hx
    rcases hx with ((hx | hx) | hx) | hx
    · revert x; decide
    · exact decimal_visible _ x hx
    · revert x; decide
    · exact decimal_visible _ x hx
  simp only [head, h1, sendFull, h403]
  rw [if_pos (by decide)]
  simp only [if_true, headViaGet, h2, sendFull, hr]
  rw [if_neg (by decide)]
  simp only [hc, hv, re_no_size]

/-- **C79**: whatever the server does, a reported size is a number that the server gave, as the length of
a successful answer to `HEAD` that also promises byte ranges, or, if `HEAD` is forbidden, in the range of
the answer to a `GET` of the first byte. -/
theorem C79_size_from_server (s : Server) (n : Nat) (h : head s = .ok n) :
    (∃ r t, s.head = some r ∧ ¬ (400 ≤ r.status ∧ r.status < 600) ∧ r.headers.contentLength = some t ∧
      Denotes t n ∧ ∃ a, r.headers.acceptRanges = some a ∧ SameLetters a (ascii "bytes")) ∨
    (∃ e r v g, s.head = some e ∧ e.status = 403 ∧ s.get (some (ascii "bytes=0-0")) = some r ∧
      ¬ (400 ≤ r.status ∧ r.status < 600) ∧ r.headers.contentRange = some v ∧
      g <:+: v ∧ Denotes g n) := by
  simp only [head] at h
  cases hh : s.head with
  | none => rw [hh] at h; simp [sendFull] at h
  | some e =>
    rw [hh] at h
    simp only [sendFull] at h
    by_cases hst : 400 ≤ e.status ∧ e.status < 600
    · rw [if_pos hst] at h
      simp only at h
      split at h
      · next h403 =>
        right
        simp only [headViaGet] at h
        cases hg : s.get (some (ascii "bytes=0-0")) with
        | none => rw [hg] at h; simp [sendFull] at h
        | some r =>
          rw [hg] at h
          simp only [sendFull] at h
          by_cases hrs : 400 ≤ r.status ∧ r.status < 600
          · rw [if_pos hrs] at h; cases h
          · rw [if_neg hrs] at h
            simp only at h
            split at h
            · cases h
            · next v hv =>
              split at h
              · cases h
              · next t ht =>
                have := toStr_eq ht; subst this
                split at h
                · cases h
                · cases h
                · next g hg2 =>
                  split at h
                  · cases h
                  · next m hm =>
                    injection h with h
                    subst h
                    exact ⟨e, r, _, g, rfl, h403, rfl, hrs, hv, re_infix hg2, parseU64_denotes hm⟩
      · cases h
    · rw [if_neg hst] at h
      simp only at h
      left
      split at h
      · cases h
      · next v hv =>
        split at h
        · cases h
        · next t ht =>
          have := toStr_eq ht; subst this
          split at h
          · cases h
          · next m hm =>
            split at h
            · cases h
            · next a ha =>
              split at h
              · cases h
              · next a' ha' =>
                have := toStr_eq ha'
                subst this
                split at h
                · next hb =>
                  injection h with h
                  subst h
                  exact ⟨e, _, rfl, hst, hv, parseU64_denotes hm, _, ha, (lower_bytes _).1 hb⟩
                · cases h

/-- **C79**: a read of the whole object from a server that follows the standard. -/
theorem C79_get_whole (obj : List Nat) (b : Bool) (h : obj.length < 2 ^ 64) :
    getOpts (rfcServer obj b) none = .ok ⟨0, obj.length, obj.length, obj⟩ := by
  simp only [getOpts, rfcServer, sendFull]
  rw [if_neg (by decide)]
  simp [headerMeta, toStr_decimal, parseU64_decimal _ h]

/-- **C79**: a ranged read through `get_opts` from a server that follows the standard: the bytes, their
positions and the size of the object. -/
theorem C79_get_range (obj : List Nat) (b : Bool) (h : obj.length < 2 ^ 64) (start stop : Nat)
    (hs : start < stop) (hin : start < obj.length) :
    getOpts (rfcServer obj b) (some (start, stop)) =
      .ok ⟨start, min stop obj.length, obj.length, (obj.drop start).take (stop - start)⟩ := by
  have hp := parseRange_header start (stop - 1)
  rw [if_pos (by omega)] at hp
  have hlen : ((obj.drop start).take (stop - 1 + 1 - start)).length < 2 ^ 64 := by
    rw [List.length_take, List.length_drop]; omega
  simp only [getOpts, rangeHeader]
  rw [if_neg (by omega)]
  simp only [Option.map_some, rfcServer, hp, if_pos hin, sendFull]
  rw [if_neg (by decide)]
  simp only [headerMeta, Bool.not_true, Bool.or_self, Bool.false_eq_true, if_false, toStr_decimal,
    parseU64_decimal _ hlen, toStr_ok (contentRangeText_visible _ _ _)]
  rw [contentRange_text _ _ _ (by omega) (by omega) h]
  have e : min (stop - 1) (obj.length - 1) + 1 = min stop obj.length := by omega
  have e2 : stop - 1 + 1 - start = stop - start := by omega
  simp only [e, e2]

/-- **C79 is violated** for `get_opts` ("ensure that we receive the range we asked for"): any range that
the server answers with is accepted, whatever was asked for, and its body is not checked either. -/
theorem C79_violated_other_range (start stop a b n : Nat) (hs : start < stop) (ha : a < 2 ^ 64)
    (hb : b < 2 ^ 64) (hn : n < 2 ^ 64) (body : List Nat) :
    getOpts ⟨none, fun _ => some ⟨206, { contentLength := some (ascii "1")
                                         contentRange := some (contentRangeText a b n) }, body⟩⟩
      (some (start, stop)) = .ok ⟨a, b + 1, n, body⟩ := by
  have e1 : toStr (ascii "1") = some (ascii "1") := by decide
  have e2 : parseU64 (ascii "1") = some 1 := by decide
  simp only [getOpts, rangeHeader]
  rw [if_neg (by omega)]
  simp only [Option.map_some, sendFull]
  rw [if_neg (by decide)]
  simp [headerMeta, e1, e2, toStr_ok (contentRangeText_visible _ _ _),
    contentRange_text _ _ _ ha hb hn]

/-- A prefix listing is the object itself; only `HEAD` (or its emulation) is asked, and its outcome is the outcome of the
listing.  Everything else is refused. -/
theorem C79_list (s : Server) (p : List Nat) (hp : ∀ q, p ≠ q ++ [47]) :
    (∀ n, list s (some p) = .ok [n] ↔ head s = .ok n) ∧ (list s (some p) = .err ↔ head s = .err) ∧
    (list s (some p) = .panic ↔ head s = .panic) ∧ list s none = .err ∧ ∀ q, list s (some (q ++ [47])) = .err := by
  have : p.getLast? ≠ some 47 := by
    intro h
    rw [List.getLast?_eq_some_iff] at h
    obtain ⟨q, hq⟩ := h
    exact hp q hq
  refine ⟨fun n => ?_, ?_, ?_, rfl, fun q => by simp [list]⟩ <;>
  · simp only [list, if_neg this]
    cases head s <;> simp

theorem re_none_shape {v : List Nat} (h : contentRangeRe v = some none) : ∃ x, v = ascii "bytes" ++ x ∧ 45 ∈ x := by
  unfold contentRangeRe at h
  split at h
  · cases h
  · next r hr =>
    refine ⟨r, stripPrefix_spec hr, ?_⟩
    simp only at h
    split at h
    · cases h
    · split at h
      · cases h
      · split at h
        · next r2 h2 =>
          have h3 : (45 : Nat) ∈ optSpace ((r.dropWhile isSpace).dropWhile isDigit) := by rw [h2]; simp
          have h4 := (optSpace_suffix _).subset h3
          exact (List.dropWhile_suffix _).subset ((List.dropWhile_suffix _).subset h4)
        · cases h

/-- **C79**: a size request crashes only if the server forbids `HEAD` and gives a byte range without the complete
length; no other answer, and no missing answer, does this. -/
theorem C79_panic_only (s : Server) (h : head s = .panic) :
    (∃ e, s.head = some e ∧ e.status = 403) ∧
    ∃ r x, s.get (some (ascii "bytes=0-0")) = some r ∧ ¬ (400 ≤ r.status ∧ r.status < 600) ∧
      r.headers.contentRange = some (ascii "bytes" ++ x) ∧ 45 ∈ x := by
  have hg : headViaGet s = .panic → ∃ r x, s.get (some (ascii "bytes=0-0")) = some r ∧
      ¬ (400 ≤ r.status ∧ r.status < 600) ∧ r.headers.contentRange = some (ascii "bytes" ++ x) ∧ 45 ∈ x := by
    intro h
    simp only [headViaGet, sendFull] at h
    cases hr : s.get (some (ascii "bytes=0-0")) with
    | none => simp [hr] at h
    | some r =>
      simp only [hr] at h
      by_cases hst : 400 ≤ r.status ∧ r.status < 600
      · simp [hst] at h
      · simp only [if_neg hst] at h
        cases hc : r.headers.contentRange with
        | none => simp [hc] at h
        | some v =>
          simp only [hc] at h
          cases ht : toStr v with
          | none => simp [ht] at h
          | some t =>
            simp only [ht] at h
            cases hre : contentRangeRe t with
            | none => simp [hre] at h
            | some g =>
              cases g with
              | none =>
                obtain ⟨x, hx, hm⟩ := re_none_shape hre
                rw [toStr_eq ht] at hx
                exact ⟨r, x, rfl, hst, by rw [hc, hx], hm⟩
              | some g =>
                simp only [hre] at h
                cases hp : parseU64 g <;> simp [hp] at h
  cases he : s.head with
  | none => simp [head, he, sendFull] at h
  | some e =>
    by_cases hst : 400 ≤ e.status ∧ e.status < 600
    · by_cases h403 : e.status = 403
      · refine ⟨⟨e, rfl, h403⟩, hg ?_⟩
        simp only [head, he, sendFull, if_pos hst, if_pos h403] at h
        exact h
      · simp [head, he, sendFull, if_pos hst, if_neg h403] at h
    · exfalso
      simp only [head, he, sendFull, if_neg hst] at h
      revert h
      repeat' split
      all_goals simp

/-- **C79**: spaces and tabs around the `Content-Range` of an answer do not matter. -/
theorem C79_padding (w1 w2 : List Nat) (h1 : ∀ c ∈ w1, c = 32 ∨ c = 9) (h2 : ∀ c ∈ w2, c = 32 ∨ c = 9) (a b n : Nat)
    (ha : a < 2 ^ 64) (hb : b < 2 ^ 64) (hn : n < 2 ^ 64) :
    contentRange (w1 ++ contentRangeText a b n ++ w2) = some (a, b + 1, n) := by
  have hs : ∀ w : List Nat, (∀ c ∈ w, c = 32 ∨ c = 9) → ∀ c ∈ w, isSpace c = true := by
    intro w hw c hc
    rcases hw c hc with h | h <;> subst h <;> rfl
  have et : trim (w1 ++ contentRangeText a b n ++ w2) = contentRangeText a b n := by
    have e1 : (w1 ++ contentRangeText a b n ++ w2).dropWhile isSpace = contentRangeText a b n ++ w2 := by
      rw [List.append_assoc, List.dropWhile_append_of_pos (hs w1 h1)]
      simp only [contentRangeText, List.append_assoc]
      rfl
    rw [trim, e1, List.reverse_append, List.dropWhile_append_of_pos (fun c hc => hs w2 h2 c (List.mem_reverse.1 hc))]
    have := dropWhile_rev_decimal (ascii "bytes " ++ decimal a ++ ascii "-" ++ decimal b ++ ascii "/") n
    simpa [contentRangeText] using this
  have et0 : trim (contentRangeText a b n) = contentRangeText a b n := by
    have e1 : (contentRangeText a b n).dropWhile isSpace = contentRangeText a b n := by
      simp only [contentRangeText, List.append_assoc]
      rfl
    rw [trim, e1]
    have := dropWhile_rev_decimal (ascii "bytes " ++ decimal a ++ ascii "-" ++ decimal b ++ ascii "/") n
    simpa [contentRangeText] using this
  have := contentRange_text a b n ha hb hn
  simp only [contentRange, et, et0] at this ⊢
  exact this

example : contentRange ([9, 32] ++ contentRangeText 0 9 70 ++ [9]) = some (0, 10, 70) :=
  C79_padding _ _ (by decide) (by decide) 0 9 70 (by decide) (by decide) (by decide)

example : head (rfcServer [7, 8, 9] false) = .ok 3 := C79_head_forbidden_partial _ (by decide) (by decide)

example : getOpts (rfcServer [5, 6, 7, 8] true) (some (1, 9)) = .ok ⟨1, 4, 4, [6, 7, 8]⟩ :=
  C79_get_range _ _ (by decide) 1 9 (by decide) (by decide)

example : head ⟨some ⟨403, {}, []⟩, fun _ => some ⟨206, { contentRange := some (ascii "bytes 0-0") }, [1]⟩⟩ = .panic :=
  C79_violated_panic 0 0 _ ⟨403, {}, []⟩ ⟨206, { contentRange := some (ascii "bytes 0-0") }, [1]⟩ rfl rfl rfl rfl
    (by simp [decimal, ascii])

end Seafowl.Store.Http
