import Verif.Frontend.Routes
import Verif.Store.HttpProps

/-!
# C100: the address of a request names what it works on; C101: a GET request answers its query; C102: an upload loads
the file that was sent
-/

namespace Seafowl.Routes

open Seafowl.Store.Http (hexValue percentDecode percentEncode hexDigit ascii IsBytes percentDecode_cons_ne percentDecode_esc
  decode_encode percentEncode_chars)
open Seafowl.Front (ApiError Policy Principal)

/-! ### specification: how a client writes an address (RFC 3986) -/

/-- The unreserved characters: letters, digits, `-`, `.`, `_`, `~`. -/
def Unreserved (b : Nat) : Prop :=
  (48 ≤ b ∧ b ≤ 57) ∨ (65 ≤ b ∧ b ≤ 90) ∨ (97 ≤ b ∧ b ≤ 122) ∨ b = 45 ∨ b = 46 ∨ b = 95 ∨ b = 126

instance (b : Nat) : Decidable (Unreserved b) := by unfold Unreserved; infer_instance

/-- A text in a path: unreserved characters as they are, the others as `%` and two hexadecimal digits. -/
def encodeText : Bytes → Bytes
  | [] => []
  | b :: rest =>
    if Unreserved b then b :: encodeText rest else 37 :: hexDigit (b / 16) :: hexDigit (b % 16) :: encodeText rest

/-- The path with the given segments. -/
def address : List Bytes → Bytes
  | [] => []
  | s :: rest => 47 :: (encodeText s ++ address rest)

/-! ### lemmas -/

theorem hexDigit_ge (n : Nat) : 48 ≤ hexDigit n := by
  unfold hexDigit
  split <;> omega

theorem encodeText_no_slash (s : Bytes) : 47 ∉ encodeText s := by
  induction s with
  | nil => simp [encodeText]
  | cons b s ih =>
    simp only [encodeText]
    split
    · next h =>
      simp only [List.mem_cons, not_or]
      refine ⟨?_, ih⟩
      unfold Unreserved at h
      omega
    · have h1 := hexDigit_ge (b / 16)
      have h2 := hexDigit_ge (b % 16)
      simp only [List.mem_cons, not_or]
      exact ⟨by omega, by omega, by omega, ih⟩

theorem encodeText_nil_iff (s : Bytes) : encodeText s = [] ↔ s = [] := by
  cases s with
  | nil => simp [encodeText]
  | cons b s =>
    simp only [encodeText]
    split <;> simp

theorem encodeText_length (s : Bytes) :
    s.length ≤ (encodeText s).length ∧ ((encodeText s).length = s.length → ∀ b ∈ s, Unreserved b) := by
  induction s with
  | nil => simp [encodeText]
  | cons b s ih =>
    simp only [encodeText]
    split
    · next h =>
      simp only [List.length_cons, Nat.add_le_add_iff_right, Nat.add_right_cancel_iff, List.mem_cons, forall_eq_or_imp]
      exact ⟨ih.1, fun he => ⟨h, ih.2 he⟩⟩
    · simp only [List.length_cons]
      have := ih.1
      exact ⟨by omega, fun he => by omega⟩

theorem encodeText_plain (s : Bytes) (h : ∀ b ∈ s, Unreserved b) : encodeText s = s := by
  induction s with
  | nil => rfl
  | cons b s ih =>
    simp only [encodeText, if_pos (h b (by simp)), ih (fun c hc => h c (by simp [hc]))]

theorem encodeText_eq_iff (s : Bytes) : encodeText s = s ↔ ∀ b ∈ s, Unreserved b :=
  ⟨fun h => (encodeText_length s).2 (by rw [h]), encodeText_plain s⟩

theorem decode_encodeText (s : Bytes) (h : IsBytes s) : percentDecode (encodeText s) = s := by
  induction s with
  | nil => unfold encodeText percentDecode; rfl
  | cons b s ih =>
    have ih' := ih (fun c hc => h c (by simp [hc]))
    simp only [encodeText]
    split
    · next hu =>
      have h37 : b ≠ 37 := by unfold Unreserved at hu; omega
      rw [percentDecode_cons_ne b h37, ih']
    · have hb := h b (by simp)
      rw [percentDecode_esc (b / 16) (b % 16) (by omega) (by omega), ih']
      have : 16 * (b / 16) + b % 16 = b := Nat.div_add_mod b 16
      rw [this]

theorem splitSlash_plain (x : Bytes) (h : 47 ∉ x) : splitSlash x = [x] := by
  induction x with
  | nil => rfl
  | cons c x ih =>
    simp only [List.mem_cons, not_or] at h
    have : c ≠ 47 := fun e => h.1 e.symm
    simp only [splitSlash, if_neg this, ih h.2]

theorem splitSlash_append (x rest : Bytes) (h : 47 ∉ x) : splitSlash (x ++ 47 :: rest) = x :: splitSlash rest := by
  induction x with
  | nil => simp [splitSlash]
  | cons c x ih =>
    simp only [List.mem_cons, not_or] at h
    have : c ≠ 47 := fun e => h.1 e.symm
    simp only [List.cons_append, splitSlash, if_neg this, ih h.2]

theorem splitSlash_address (s : Bytes) (l : List Bytes) :
    splitSlash (encodeText s ++ address l) = (s :: l).map encodeText ∧
    splitSlash (encodeText s ++ address l ++ [47]) = (s :: l).map encodeText ++ [[]] := by
  induction l generalizing s with
  | nil =>
    simp only [address, List.append_nil, List.map_cons, List.map_nil]
    refine ⟨splitSlash_plain _ (encodeText_no_slash s), ?_⟩
    rw [splitSlash_append _ _ (encodeText_no_slash s)]
    rfl
  | cons t l ih =>
    obtain ⟨h1, h2⟩ := ih t
    simp only [address, List.map_cons, List.append_assoc, List.cons_append]
    rw [splitSlash_append _ _ (encodeText_no_slash s), h1,
      splitSlash_append _ _ (encodeText_no_slash s)]
    rw [List.append_assoc] at h2
    rw [h2]
    simp

/-- The segments that the server sees are the encoded ones; a slash at the end does not matter. -/
theorem segments_address (l : List Bytes) (hl : l ≠ []) (hne : ∀ s ∈ l, s ≠ []) :
    segments (address l) = l.map encodeText ∧ segments (address l ++ [47]) = l.map encodeText := by
  cases l with
  | nil => exact absurd rfl hl
  | cons s l =>
    obtain ⟨h1, h2⟩ := splitSlash_address s l
    have hd : ∀ x, dropFirstSlash (address (s :: l) ++ x) = encodeText s ++ address l ++ x := by
      intro x; simp [address, dropFirstSlash]
    have hd0 : dropFirstSlash (address (s :: l)) = encodeText s ++ address l := by
      have := hd []; simpa using this
    have hlast : ((s :: l).map encodeText).getLast? ≠ some [] := by
      intro h
      have hm := List.mem_of_getLast? h
      obtain ⟨t, ht, he⟩ := List.mem_map.1 hm
      exact hne t ht ((encodeText_nil_iff t).1 he)
    constructor
    · simp only [segments, hd0, h1, dropLastEmpty, if_neg hlast]
    · simp only [segments, hd, h2, dropLastEmpty]
      rw [if_pos (by rw [List.getLast?_append]; simp), List.dropLast_concat]

theorem enc_q : encodeText (ascii "q") = ascii "q" := by decide +kernel
theorem enc_upload : encodeText (ascii "upload") = ascii "upload" := by decide +kernel

/-! ### C100 -/

/-- **C100**, as far as it holds: for names of unreserved characters, an address leads to the database, the schema and
the table it names, with or without a slash at the end; without a database, to the default one.  Missing: other names
(`C100_violated`). -/
theorem C100_address_partial (d s t x : Bytes) (hd : d ≠ []) (hs : s ≠ []) (ht : t ≠ []) (hx : x ≠ [])
    (ud : ∀ b ∈ d, Unreserved b) (us : ∀ b ∈ s, Unreserved b) (ut : ∀ b ∈ t, Unreserved b) (slash : Bytes)
    (hsl : slash = [] ∨ slash = [47]) :
    dispatch .get (segments (address [d, ascii "q", x] ++ slash)) = .ok (.read d (encodeText x)) ∧
    dispatch .get (segments (address [ascii "q", x] ++ slash)) = .ok (.read (ascii "default") (encodeText x)) ∧
    dispatch .post (segments (address [d, ascii "q"] ++ slash)) = .ok (.query d) ∧
    dispatch .post (segments (address [ascii "q"] ++ slash)) = .ok (.query (ascii "default")) ∧
    dispatch .post (segments (address [d, ascii "upload", s, t] ++ slash)) = .ok (.upload d s t) ∧
    dispatch .post (segments (address [ascii "upload", s, t] ++ slash)) = .ok (.upload (ascii "default") s t) := by
  have key : ∀ l : List Bytes, l ≠ [] → (∀ s ∈ l, s ≠ []) → segments (address l ++ slash) = l.map encodeText := by
    intro l hl hne
    obtain ⟨h1, h2⟩ := segments_address l hl hne
    rcases hsl with rfl | rfl
    · simpa using h1
    · exact h2
  have hq : ascii "q" ≠ [] := by decide +kernel
  have hu : ascii "upload" ≠ [] := by decide +kernel
  have hqu : ascii "q" ≠ ascii "upload" := by decide +kernel
  have hex : encodeText x ≠ [] := fun h => hx ((encodeText_nil_iff x).1 h)
  rw [key [d, ascii "q", x] (by simp) (by simp [hd, hq, hx]), key [ascii "q", x] (by simp) (by simp [hq, hx]),
    key [d, ascii "q"] (by simp) (by simp [hd, hq]), key [ascii "q"] (by simp) (by simp [hq]),
    key [d, ascii "upload", s, t] (by simp) (by simp [hd, hs, ht, hu]),
    key [ascii "upload", s, t] (by simp) (by simp [hs, ht, hu])]
  simp only [List.map_cons, List.map_nil, enc_q, enc_upload, encodeText_plain d ud, encodeText_plain s us,
    encodeText_plain t ut]
  simp [dispatch, getRoutes, postRoutes, readRoute, queryRoute, uploadRoute, hd, hs, ht, hex, defaultDb]

theorem readRoute_inv {segs : List Bytes} {t : Target} (h : readRoute segs = some t) : ∃ d x, t = .read d x ∧
    (segs = [d, ascii "q", x] ∨ (segs = [ascii "q", x] ∧ d = ascii "default")) := by
  rcases segs with _ | ⟨a, _ | ⟨b, _ | ⟨c, _ | ⟨e, l⟩⟩⟩⟩
  · simp [readRoute] at h
  · simp [readRoute] at h
  · simp only [readRoute, Option.ite_none_right_eq_some, Option.some.injEq] at h
    obtain ⟨⟨rfl, _⟩, rfl⟩ := h
    exact ⟨_, _, rfl, Or.inr ⟨rfl, rfl⟩⟩
  · simp only [readRoute, Option.ite_none_right_eq_some, Option.some.injEq] at h
    obtain ⟨⟨rfl, _⟩, rfl⟩ := h
    exact ⟨_, _, rfl, Or.inl rfl⟩
  · simp [readRoute] at h

theorem queryRoute_inv {segs : List Bytes} {t : Target} (h : queryRoute segs = some t) : ∃ d, t = .query d ∧
    (segs = [d, ascii "q"] ∨ (segs = [ascii "q"] ∧ d = ascii "default")) := by
  rcases segs with _ | ⟨a, _ | ⟨b, _ | ⟨c, l⟩⟩⟩
  · simp [queryRoute] at h
  · simp only [queryRoute, Option.ite_none_right_eq_some, Option.some.injEq] at h
    obtain ⟨rfl, rfl⟩ := h
    exact ⟨_, rfl, Or.inr ⟨rfl, rfl⟩⟩
  · simp only [queryRoute, Option.ite_none_right_eq_some, Option.some.injEq] at h
    obtain ⟨⟨rfl, _⟩, rfl⟩ := h
    exact ⟨_, rfl, Or.inl rfl⟩
  · simp [queryRoute] at h

theorem uploadRoute_inv {segs : List Bytes} {t' : Target} (h : uploadRoute segs = some t') : ∃ d s t,
    t' = .upload d s t ∧
    (segs = [d, ascii "upload", s, t] ∨ (segs = [ascii "upload", s, t] ∧ d = ascii "default")) := by
  rcases segs with _ | ⟨a, _ | ⟨b, _ | ⟨c, _ | ⟨e, _ | ⟨f, l⟩⟩⟩⟩⟩
  · simp [uploadRoute] at h
  · simp [uploadRoute] at h
  · simp [uploadRoute] at h
  · simp only [uploadRoute, Option.ite_none_right_eq_some, Option.some.injEq] at h
    obtain ⟨⟨rfl, _⟩, rfl⟩ := h
    exact ⟨_, _, _, rfl, Or.inr ⟨rfl, rfl⟩⟩
  · simp only [uploadRoute, Option.ite_none_right_eq_some, Option.some.injEq] at h
    obtain ⟨⟨rfl, _⟩, rfl⟩ := h
    exact ⟨_, _, _, rfl, Or.inl rfl⟩
  · simp [uploadRoute] at h

theorem healthRoute_inv {segs : List Bytes} {t : Target} (h : healthRoute segs = some t) :
    t = .health ∧ (segs = [ascii "healthz"] ∨ segs = [ascii "readyz"]) := by
  rcases segs with _ | ⟨a, _ | ⟨b, l⟩⟩
  · simp [healthRoute] at h
  · simp only [healthRoute, Option.ite_none_right_eq_some, Option.some.injEq] at h
    obtain ⟨hc, rfl⟩ := h
    refine ⟨rfl, ?_⟩
    rcases hc with rfl | rfl
    · exact Or.inl rfl
    · exact Or.inr rfl
  · simp [healthRoute] at h

/-- A request works on nothing but what stands in its path: the database, schema and table are segments of it, or the
default database if there is none, and the method is the one of the route. -/
theorem C100_only (m : Method) (segs : List Bytes) (tg : Target) (h : dispatch m segs = .ok tg) :
    match tg with
    | .read d x => m = .get ∧ (segs = [d, ascii "q", x] ∨ (segs = [ascii "q", x] ∧ d = ascii "default"))
    | .query d => m = .post ∧ (segs = [d, ascii "q"] ∨ (segs = [ascii "q"] ∧ d = ascii "default"))
    | .upload d s t => m = .post ∧
        (segs = [d, ascii "upload", s, t] ∨ (segs = [ascii "upload", s, t] ∧ d = ascii "default"))
    | .health => m = .get ∧ (segs = [ascii "healthz"] ∨ segs = [ascii "readyz"]) := by
  cases m with
  | get =>
    simp only [dispatch] at h
    cases hg : getRoutes segs with
    | none => rw [hg] at h; cases h
    | some t =>
      rw [hg] at h
      injection h with h
      subst h
      unfold getRoutes at hg
      rcases Option.or_eq_some_iff.1 hg with hg | ⟨_, hg⟩
      · obtain ⟨d, x, rfl, h1⟩ := readRoute_inv hg
        exact ⟨rfl, h1⟩
      · obtain ⟨rfl, h1⟩ := healthRoute_inv hg
        exact ⟨rfl, h1⟩
  | post =>
    simp only [dispatch] at h
    cases hg : postRoutes segs with
    | none => rw [hg] at h; cases h
    | some t =>
      rw [hg] at h
      injection h with h
      subst h
      unfold postRoutes at hg
      rcases Option.or_eq_some_iff.1 hg with hg | ⟨_, hg⟩
      · obtain ⟨d, rfl, h1⟩ := queryRoute_inv hg
        exact ⟨rfl, h1⟩
      · obtain ⟨d, s, t, rfl, h1⟩ := uploadRoute_inv hg
        exact ⟨rfl, h1⟩
  | other => simp [dispatch] at h

/-- Other paths are refused with 404, other methods on the paths of the routes with 405. -/
theorem C100_refused (m : Method) (segs : List Bytes) (n : Nat) (h : dispatch m segs = .error n) :
    (n = 404 ∧ ∀ m', ∃ n', dispatch m' segs = .error n') ∨ (n = 405 ∧ ∃ m' t, m' ≠ m ∧ dispatch m' segs = .ok t) := by
  cases hg : getRoutes segs with
  | none =>
    cases hp : postRoutes segs with
    | none =>
      left
      refine ⟨?_, fun m' => ?_⟩
      · cases m <;> simp [dispatch, hg, hp] at h <;> exact h.symm
      · cases m' <;> simp [dispatch, hg, hp]
    | some t =>
      right
      cases m with
      | post => simp [dispatch, hp] at h
      | get => exact ⟨by simpa [dispatch, hg, hp] using h.symm, .post, t, by decide, by simp [dispatch, hp]⟩
      | other => exact ⟨by simpa [dispatch, hg, hp] using h.symm, .post, t, by decide, by simp [dispatch, hp]⟩
  | some t =>
    right
    cases m with
    | get => simp [dispatch, hg] at h
    | post =>
      cases hp : postRoutes segs with
      | none => exact ⟨by simpa [dispatch, hg, hp] using h.symm, .get, t, by decide, by simp [dispatch, hg]⟩
      | some t' => simp [dispatch, hp] at h
    | other => exact ⟨by simpa [dispatch, hg] using h.symm, .get, t, by decide, by simp [dispatch, hg]⟩

/-- **C100 is violated** for every other name: the server does not decode the path, so the upload to a table goes to a
table with another name, and the database that is asked is another one.  A space, a slash and every letter outside ASCII
are such characters. -/
theorem C100_violated (d s t : Bytes) (hd : d ≠ []) (hs : s ≠ []) (ht : t ≠ []) :
    dispatch .post (segments (address [d, ascii "upload", s, t])) =
      .ok (.upload (encodeText d) (encodeText s) (encodeText t)) ∧
    dispatch .post (segments (address [d, ascii "q"])) = .ok (.query (encodeText d)) ∧
    (∀ n : Bytes, (∃ b ∈ n, ¬ Unreserved b) → encodeText n ≠ n) ∧
    ¬ Unreserved 32 ∧ ¬ Unreserved 47 ∧ ∀ b, 128 ≤ b → ¬ Unreserved b := by
  have hu : ascii "upload" ≠ [] := by decide +kernel
  have hq : ascii "q" ≠ [] := by decide +kernel
  refine ⟨?_, ?_, ?_, by decide, by decide, fun b hb h => by unfold Unreserved at h; omega⟩
  · rw [(segments_address [d, ascii "upload", s, t] (by simp) (by simp [hd, hs, ht, hu])).1]
    simp only [List.map_cons, List.map_nil, enc_upload]
    simp [dispatch, postRoutes, queryRoute, uploadRoute, encodeText_nil_iff, hd, hs, ht]
  · rw [(segments_address [d, ascii "q"] (by simp) (by simp [hd, hq])).1]
    simp only [List.map_cons, List.map_nil, enc_q]
    simp [dispatch, postRoutes, queryRoute, encodeText_nil_iff, hd]
  · rintro n ⟨b, hb, hn⟩ h
    exact hn ((encodeText_eq_iff n).1 h b hb)

/-! ### C101 -/

theorem takeWhile_encode (s : Bytes) : upToDot (encodeText s) = encodeText (s.takeWhile (· != 46)) := by
  unfold upToDot
  induction s with
  | nil => rfl
  | cons b s ih =>
    by_cases hb : b = 46
    · subst hb
      have : Unreserved 46 := by decide
      simp [encodeText, this]
    · simp only [encodeText]
      split
      · next h =>
        have h2 : (b != 46) = true := by simpa using hb
        simp only [List.takeWhile_cons, h2, if_true, encodeText, if_pos h, ih]
      · next h =>
        have h2 : (b != 46) = true := by simpa using hb
        have e1 := hexDigit_ge (b / 16)
        have e2 := hexDigit_ge (b % 16)
        have h3 : (hexDigit (b / 16) != 46) = true := by simp; omega
        have h4 : (hexDigit (b % 16) != 46) = true := by simp; omega
        have h5 : ((37 : Nat) != 46) = true := by decide
        simp only [List.takeWhile_cons, h2, h3, h4, h5, if_true, encodeText, if_neg h, ih]

theorem isBytes_takeWhile {s : Bytes} (h : IsBytes s) (p : Nat → Bool) : IsBytes (s.takeWhile p) :=
  fun b hb => h b (List.takeWhile_subset p hb)

theorem takeWhile_all {s : Bytes} {p : Nat → Bool} (h : ∀ b ∈ s, p b = true) : s.takeWhile p = s := by
  induction s with
  | nil => rfl
  | cons b s ih =>
    simp [h b (by simp), ih (fun c hc => h c (by simp [hc]))]

/-- **C101**, as far as it holds: a query without a dot in the path, written by the rules of addresses, is the query
that is answered.  Missing: queries with a dot (`C101_violated_dot`). -/
theorem C101_path_partial (utf8 : Bytes → Bool) (hash : Bytes → Bytes) (q : Bytes) (hb : IsBytes q) (hu : utf8 q = true)
    (hd : 46 ∉ q) : readQuery utf8 hash (encodeText q) none = .ok q := by
  have h1 : q.takeWhile (· != 46) = q := takeWhile_all (fun b hb => by
    simp only [bne_iff_ne, ne_eq]; intro he; exact hd (he ▸ hb))
  simp only [readQuery, takeWhile_encode, h1, decode_encodeText q hb, hu, if_true]

/-- A client that encodes dots as well gets every query through, also with an extension behind it. -/
theorem C101_path_encoded (utf8 : Bytes → Bool) (hash : Bytes → Bytes) (q ext : Bytes) (hb : IsBytes q)
    (hu : utf8 q = true) (he : ext = [] ∨ ∃ e, ext = 46 :: e) :
    readQuery utf8 hash (percentEncode q ++ ext) none = .ok q := by
  have h1 : upToDot (percentEncode q ++ ext) = percentEncode q := by
    have h2 : ∀ c ∈ percentEncode q, (c != 46) = true := by
      intro c hc
      rcases percentEncode_chars q hb c hc with h | h
      · simp only [bne_iff_ne, ne_eq]; rintro rfl; revert h; decide
      · subst h; decide
    unfold upToDot
    rw [List.takeWhile_append_of_pos h2]
    rcases he with rfl | ⟨e, rfl⟩
    · simp
    · simp
  simp only [readQuery, h1, decode_encode q hb, hu, if_true]

/-- **C101** for queries in the body or in the header: with the hash of the query in the path, with or without an
extension, the query that is answered is the one whose hash was given, encoded or not; and nothing else is ever
answered. -/
theorem C101_hash (utf8 : Bytes → Bool) (hash : Bytes → Bytes) (q raw ext : Bytes) (hdot : ∀ x, 46 ∉ hash x)
    (hu : utf8 q = true) (he : ext = [] ∨ ∃ e, ext = 46 :: e) (hr : percentDecode raw = q) :
    readQuery utf8 hash (hash q ++ ext) (some raw) = .ok q ∧
    ∀ q', (∀ x y, hash x = hash y → x = y) → readQuery utf8 hash (hash q' ++ ext) (some raw) = .ok q' ∨
      readQuery utf8 hash (hash q' ++ ext) (some raw) = .error (.hashMismatch [] []) := by
  have hup : ∀ x, upToDot (hash x ++ ext) = hash x := by
    intro x
    have h2 : ∀ c ∈ hash x, (c != 46) = true := by
      intro c hc
      simp only [bne_iff_ne, ne_eq]; rintro rfl; exact hdot x hc
    unfold upToDot
    rw [List.takeWhile_append_of_pos h2]
    rcases he with rfl | ⟨e, rfl⟩
    · simp
    · simp
  constructor
  · simp only [readQuery, hr, hu, if_true, hup]
  · intro q' hinj
    by_cases hq : q' = q
    · left
      subst hq
      simp only [readQuery, hr, hu, if_true, hup]
    · right
      have : hash q' ≠ hash q := fun h => hq (hinj _ _ h)
      simp only [readQuery, hr, hu, if_true, hup, if_neg this]

/-- A hexadecimal digit. -/
def IsHex (c : Nat) : Prop := (48 ≤ c ∧ c ≤ 57) ∨ (65 ≤ c ∧ c ≤ 70) ∨ (97 ≤ c ∧ c ≤ 102)

/-- No `%` in the text is followed by two hexadecimal digits. -/
def NoEscape (q : Bytes) : Prop := ∀ p a b s, q = p ++ 37 :: a :: b :: s → ¬(IsHex a ∧ IsHex b)

theorem isHex_of_value {c x : Nat} (h : hexValue c = some x) : IsHex c := by
  unfold hexValue at h
  unfold IsHex
  split at h
  · left; assumption
  · split at h
    · right; left; assumption
    · split at h
      · right; right; assumption
      · simp at h

theorem NoEscape.tail {b : Nat} {q : Bytes} (h : NoEscape (b :: q)) : NoEscape q :=
  fun p x y s e => h (b :: p) x y s (by rw [e]; rfl)

/-- The encoded query in the header, and a query in the body in which no `%` is followed by two hexadecimal digits,
are such. -/
theorem C101_raw (q : Bytes) (hb : IsBytes q) :
    percentDecode (encodeText q) = q ∧ (NoEscape q → percentDecode q = q) := by
  refine ⟨decode_encodeText q hb, fun h => ?_⟩
  clear hb
  induction q with
  | nil => unfold percentDecode; rfl
  | cons b q ih =>
    have ih := ih h.tail
    by_cases hb : b = 37
    · subst hb
      rcases q with _ | ⟨a, _ | ⟨c, q⟩⟩
      · simp [percentDecode]
      · rw [show percentDecode [37, a] = 37 :: percentDecode [a] from by rw [percentDecode]; simp, ih]
      · rw [percentDecode]
        split
        · rename_i x y hx hy
          exact absurd ⟨isHex_of_value hx, isHex_of_value hy⟩ (h [] a c q rfl)
        · rw [ih]
    · rw [percentDecode_cons_ne b hb, ih]

/-- The digit for the value `n`, in either case (RFC 3986, 2.1). -/
inductive DigitOf : Nat → Nat → Prop
  | decimal (n : Nat) : n < 10 → DigitOf (48 + n) n
  | upper (n : Nat) : n < 6 → DigitOf (65 + n) (10 + n)
  | lower (n : Nat) : n < 6 → DigitOf (97 + n) (10 + n)

/-- `raw` is the text with some of its bytes escaped, among them every `%`. -/
inductive Escapes : Bytes → Bytes → Prop
  | nil : Escapes [] []
  | plain (b : Nat) {raw q : Bytes} : b ≠ 37 → Escapes raw q → Escapes (b :: raw) (b :: q)
  | escape {a b x y : Nat} {raw q : Bytes} : DigitOf a x → DigitOf b y → Escapes raw q →
      Escapes (37 :: a :: b :: raw) ((16 * x + y) :: q)

theorem hexValue_digit {a x : Nat} (h : DigitOf a x) : hexValue a = some x := by
  unfold hexValue
  cases h with
  | decimal n hn => rw [if_pos (by omega)]; congr 1; omega
  | upper n hn => rw [if_neg (by omega), if_pos (by omega)]; congr 1; omega
  | lower n hn => rw [if_neg (by omega), if_neg (by omega), if_pos (by omega)]; congr 1; omega

/-- **C101 (every client's escapes).** Whatever bytes a client escapes, with upper or lower case digits, the query is read
as it was. -/
theorem C101_escapes {raw q : Bytes} (h : Escapes raw q) : percentDecode raw = q := by
  induction h with
  | nil => unfold percentDecode; rfl
  | plain b hb _ ih => rw [percentDecode_cons_ne b hb, ih]
  | escape ha hb _ ih => rw [percentDecode]; simp only [hexValue_digit ha, hexValue_digit hb, ih]

/-- `a%2fB` is `a/B`. -/
example : Escapes [97, 37, 50, 102, 66] [97, 47, 66] :=
  .plain 97 (by decide) (.escape (.decimal 2 (by decide)) (.lower 5 (by decide)) (.plain 66 (by decide) .nil))

/-- Such is the text `'5%'` of a pattern. -/
example : NoEscape (ascii "'5%'") := by
  have h : ascii "'5%'" = [39, 53, 37, 39] := by decide +kernel
  rw [h]
  intro p a b s e
  rcases p with _ | ⟨_, _ | ⟨_, _ | ⟨_, _ | ⟨_, _ | ⟨_, p⟩⟩⟩⟩⟩ <;> simp at e

/-- **C101 is violated**: of a query with a dot in the path, only the part before the dot is answered; `SELECT 1.5` is
answered as `SELECT 1`. -/
theorem C101_violated_dot (utf8 : Bytes → Bool) (hash : Bytes → Bytes) (q : Bytes) (hb : IsBytes q)
    (hu : utf8 (q.takeWhile (· != 46)) = true) :
    readQuery utf8 hash (encodeText q) none = .ok (q.takeWhile (· != 46)) ∧
    (ascii "SELECT 1.5").takeWhile (· != 46) = ascii "SELECT 1" := by
  refine ⟨?_, by decide +kernel⟩
  simp only [readQuery, takeWhile_encode, decode_encodeText _ (isBytes_takeWhile hb _), hu, if_true]

/-- **C101 is violated** for queries in the body: they are percent-decoded although the body is JSON, so that a query
with `%41` in a literal is refused under its own hash. -/
theorem C101_violated_body (utf8 : Bytes → Bool) (hash : Bytes → Bytes) (hdot : ∀ x, 46 ∉ hash x)
    (hinj : ∀ x y, hash x = hash y → x = y) (hu : utf8 (ascii "SELECT 'A'") = true) :
    readQuery utf8 hash (hash (ascii "SELECT '%41'")) (some (ascii "SELECT '%41'")) =
      .error (.hashMismatch [] []) := by
  have hd : percentDecode (ascii "SELECT '%41'") = ascii "SELECT 'A'" := by
    have e : ascii "SELECT '%41'" = [83, 69, 76, 69, 67, 84, 32, 39, 37, 52, 49, 39] := by decide +kernel
    rw [e]
    simp [percentDecode, Store.Http.hexValue]
    decide +kernel
  rcases (C101_hash utf8 hash _ _ [] hdot hu (Or.inl rfl) hd).2 (ascii "SELECT '%41'") hinj with h | h
  · rw [List.append_nil] at h
    simp only [readQuery, hd, hu, if_true] at h
    split at h
    · injection h with h; exact absurd h (by decide +kernel)
    · cases h
  · rwa [List.append_nil] at h

/-- … and so is every query that percent-decoding changes. -/
theorem C101_violated_body_always (utf8 : Bytes → Bool) (hash : Bytes → Bytes) (hinj : ∀ x y, hash x = hash y → x = y)
    (hdot : ∀ x, 46 ∉ hash x) (q : Bytes) (hq : percentDecode q ≠ q) :
    readQuery utf8 hash (hash q) (some q) = .error (.hashMismatch [] []) ∨
    readQuery utf8 hash (hash q) (some q) = .error .queryDecode := by
  have hu : upToDot (hash q) = hash q := by
    unfold upToDot
    have hall : ∀ x ∈ hash q, (x != 46) = true := by
      intro x hx
      simpa using fun h : x = 46 => hdot q (h ▸ hx)
    have := List.takeWhile_append_of_pos hall (l₂ := [])
    simpa using this
  unfold readQuery
  simp only [hu]
  split
  · rw [if_neg (fun h => hq (hinj _ _ h).symm)]; exact .inl rfl
  · exact .inr rfl

/-- **C101** for whole requests: the query of the body counts before that of the header, and that before the path; only
a caller who may read gets an answer. -/
theorem C101_request {σ : Type} (R : Reader σ) (hash : Bytes → Bytes) (ht : Front.Str → Front.Str) (pol : Policy)
    (r : Req) (db sql : Bytes) (h : ask R hash ht pol r = .run db sql) :
    ∃ x, r.method = .get ∧
      (segments r.path = [db, ascii "q", x] ∨ (segments r.path = [ascii "q", x] ∧ db = ascii "default")) ∧
      readAuthz ht pol r.auth = .ok () ∧
      (∀ b, r.json = some b → sql = percentDecode b ∧ upToDot x = hash sql) ∧
      (∀ b, r.json = none → r.queryHeader = some b → sql = percentDecode b ∧ upToDot x = hash sql) ∧
      (r.json = none → r.queryHeader = none → sql = percentDecode (upToDot x)) ∧ R.utf8 sql = true := by
  unfold ask at h
  cases hd : dispatch r.method (segments r.path) with
  | error s => rw [hd] at h; cases h
  | ok t =>
    rw [hd] at h
    have ho := C100_only _ _ _ hd
    cases t with
    | health => cases h
    | query d =>
      simp only at h
      split at h
      · cases h
      · split at h <;> cases h
    | upload d s t =>
      simp only at h
      split at h
      · cases h
      · split at h
        · split at h <;> cases h
        · cases h
    | read d x =>
      simp only at h ho
      split at h
      · cases h
      · next ha =>
        split at h
        · cases h
        · next sql' hs =>
          injection h with h1 h2
          subst h1 h2
          refine ⟨x, ho.1, ho.2, ha, ?_⟩
          have hraw : ∀ b, r.json.or r.queryHeader = some b →
              sql' = percentDecode b ∧ upToDot x = hash sql' ∧ R.utf8 sql' = true := by
            intro b hb
            rw [hb] at hs
            simp only [readQuery] at hs
            split at hs
            · next hu =>
              split at hs
              · next hh => injection hs with hs; subst hs; exact ⟨rfl, hh, hu⟩
              · cases hs
            · cases hs
          cases hj : r.json with
          | some b =>
            obtain ⟨h1, h2, h3⟩ := hraw b (by rw [hj]; rfl)
            refine ⟨?_, (by simp), (by simp), h3⟩
            intro b' hb'
            injection hb' with hb'
            subst hb'
            exact ⟨h1, h2⟩
          | none =>
            cases hq : r.queryHeader with
            | some b =>
              obtain ⟨h1, h2, h3⟩ := hraw b (by rw [hj, hq]; rfl)
              refine ⟨(by simp), ?_, (by simp), h3⟩
              intro b' _ hb'
              injection hb' with hb'
              subst hb'
              exact ⟨h1, h2⟩
            | none =>
              rw [hj, hq] at hs
              simp only [Option.or_none, readQuery] at hs
              split at hs
              · next hu =>
                injection hs with hs
                subst hs
                exact ⟨(by simp), (by simp), fun _ _ => rfl, hu⟩
              · cases hs

/-! ### C102 -/

/-- The last part with one of the names. -/
def LastPart (names : List Bytes) (l : List Part) (p : Part) : Prop :=
  ∃ a b, l = a ++ p :: b ∧ p.name ∈ names ∧ ∀ q ∈ b, q.name ∉ names

/-- No part has one of the names. -/
def NoPart (names : List Bytes) (l : List Part) : Prop := ∀ q ∈ l, q.name ∉ names

def fileNames : List Bytes := [ascii "data", ascii "file"]

theorem lastPart_cons {names : List Bytes} {p q : Part} {l : List Part} (h : LastPart names l p) :
    LastPart names (q :: l) p := by
  obtain ⟨a, b, rfl, h⟩ := h
  exact ⟨q :: a, b, rfl, h⟩

theorem lastPart_inv {names : List Bytes} {p q : Part} {l : List Part} (h : LastPart names (q :: l) p) :
    LastPart names l p ∨ (p = q ∧ p.name ∈ names ∧ NoPart names l) := by
  obtain ⟨a, b, he, h1, h2⟩ := h
  cases a with
  | nil =>
    simp only [List.nil_append, List.cons.injEq] at he
    obtain ⟨rfl, rfl⟩ := he
    exact Or.inr ⟨rfl, h1, h2⟩
  | cons x a =>
    simp only [List.cons_append, List.cons.injEq] at he
    obtain ⟨rfl, rfl⟩ := he
    exact Or.inl ⟨a, b, rfl, h1, h2⟩

/-- What one part does. -/
theorem part_ok {σ : Type} {R : Reader σ} {st st' : Form σ} {p : Part} (h : part R st p = .ok st') :
    (p.name = ascii "has_header" → ∃ d, p.data = some d ∧ R.utf8 d = true ∧
      st' = { st with hasHeader := (ascii "true").isPrefixOf d }) ∧
    (p.name = ascii "schema" → ∃ d s, p.data = some d ∧ R.parseSchema d = some s ∧ st' = { st with schema := some s }) ∧
    (p.name ∈ fileNames → ∃ d f, p.data = some d ∧ p.filename = some f ∧
      st' = { st with filename := f, kind := extension f, file := d }) ∧
    (p.name ≠ ascii "has_header" → p.name ≠ ascii "schema" → p.name ∉ fileNames → st' = st) := by
  have n1 : ascii "has_header" ≠ ascii "schema" := by decide +kernel
  have n2 : ascii "has_header" ∉ fileNames := by decide +kernel
  have n3 : ascii "schema" ∉ fileNames := by decide +kernel
  have n4 : ascii "schema" ≠ ascii "has_header" := by decide +kernel
  unfold part at h
  split at h
  · next hn =>
    split at h
    · cases h
    · next d hd =>
      unfold headerPart at h
      split at h
      · next hu =>
        injection h with h
        rw [hn]
        exact ⟨fun _ => ⟨d, hd, hu, h.symm⟩, fun e => absurd e n1, fun e => absurd e n2, fun e => absurd rfl e⟩
      · cases h
  · split at h
    · next hn =>
      split at h
      · cases h
      · next d hd =>
        unfold schemaPart at h
        split at h
        · split at h
          · next s hs =>
            injection h with h
            rw [hn]
            exact ⟨fun e => absurd e n4, fun _ => ⟨d, s, hd, hs, h.symm⟩, fun e => absurd e n3,
              fun _ e => absurd rfl e⟩
          · cases h
        · cases h
    · next h1 h2 =>
      split at h
      · next hn =>
        refine ⟨fun e => absurd e h1, fun e => absurd e h2, fun _ => ?_, fun _ _ e => absurd (by simpa [fileNames] using hn) e⟩
        unfold filePart at h
        split at h
        · cases h
        · next f hf =>
          split at h
          · cases h
          · split at h
            · cases h
            · next d hd =>
              split at h
              · injection h with h; exact ⟨d, f, hd, hf, h.symm⟩
              · cases h
      · next hn =>
        injection h with h
        exact ⟨fun e => absurd e h1, fun e => absurd e h2, fun e => absurd (by simpa [fileNames] using e) hn,
          fun _ _ _ => h.symm⟩

theorem parts_spec {σ : Type} (R : Reader σ) : ∀ (l : List Part) (st st' : Form σ), parts R st l = .ok st' →
    (∀ p, LastPart [ascii "has_header"] l p → ∃ d, p.data = some d ∧ st'.hasHeader = (ascii "true").isPrefixOf d) ∧
    (NoPart [ascii "has_header"] l → st'.hasHeader = st.hasHeader) ∧
    (∀ p, LastPart [ascii "schema"] l p → ∃ d, p.data = some d ∧ st'.schema = R.parseSchema d ∧ st'.schema ≠ none) ∧
    (NoPart [ascii "schema"] l → st'.schema = st.schema) ∧
    (∀ p, LastPart fileNames l p → p.data = some st'.file ∧ p.filename = some st'.filename ∧
      st'.kind = extension st'.filename) ∧
    (NoPart fileNames l → st'.file = st.file ∧ st'.kind = st.kind ∧ st'.filename = st.filename) := by
  have n1 : ascii "has_header" ≠ ascii "schema" := by decide +kernel
  have n2 : ascii "has_header" ∉ fileNames := by decide +kernel
  have n3 : ascii "schema" ∉ fileNames := by decide +kernel
  have hnil : ∀ {names : List Bytes} {p : Part}, ¬ LastPart names [] p := by
    rintro names p ⟨a, b, he, _⟩
    simp at he
  intro l
  induction l with
  | nil =>
    intro st st' h
    injection h with h
    subst h
    exact ⟨fun p hp => absurd hp hnil, fun _ => rfl, fun p hp => absurd hp hnil, fun _ => rfl,
      fun p hp => absurd hp hnil, fun _ => ⟨rfl, rfl, rfl⟩⟩
  | cons q l ih =>
    intro st st' h
    simp only [parts] at h
    cases hq : part R st q with
    | error e => rw [hq] at h; cases h
    | ok st1 =>
      rw [hq] at h
      simp only at h
      obtain ⟨a1, a2, a3, a4, a5, a6⟩ := ih st1 st' h
      obtain ⟨p1, p2, p3, p4⟩ := part_ok hq
      have hno : ∀ {names}, NoPart names (q :: l) → NoPart names l ∧ q.name ∉ names :=
        fun h => ⟨fun x hx => h x (by simp [hx]), h q (by simp)⟩
      have keepH : q.name ≠ ascii "has_header" → st1.hasHeader = st.hasHeader := by
        intro hn
        by_cases hs : q.name = ascii "schema"
        · obtain ⟨_, _, _, _, rfl⟩ := p2 hs; rfl
        · by_cases hf : q.name ∈ fileNames
          · obtain ⟨_, _, _, _, rfl⟩ := p3 hf; rfl
          · rw [p4 hn hs hf]
      have keepS : q.name ≠ ascii "schema" → st1.schema = st.schema := by
        intro hn
        by_cases hs : q.name = ascii "has_header"
        · obtain ⟨_, _, _, rfl⟩ := p1 hs; rfl
        · by_cases hf : q.name ∈ fileNames
          · obtain ⟨_, _, _, _, rfl⟩ := p3 hf; rfl
          · rw [p4 hs hn hf]
      have keepF : q.name ∉ fileNames → st1.file = st.file ∧ st1.kind = st.kind ∧ st1.filename = st.filename := by
        intro hn
        by_cases hs : q.name = ascii "has_header"
        · obtain ⟨_, _, _, rfl⟩ := p1 hs; exact ⟨rfl, rfl, rfl⟩
        · by_cases hf : q.name = ascii "schema"
          · obtain ⟨_, _, _, _, rfl⟩ := p2 hf; exact ⟨rfl, rfl, rfl⟩
          · rw [p4 hs hf hn]; exact ⟨rfl, rfl, rfl⟩
      refine ⟨?_, ?_, ?_, ?_, ?_, ?_⟩
      · intro p hp
        rcases lastPart_inv hp with hp | ⟨rfl, hn, hno'⟩
        · exact a1 p hp
        · obtain ⟨d, hd, _, rfl⟩ := p1 (by simpa using hn)
          exact ⟨d, hd, a2 hno'⟩
      · intro hn
        obtain ⟨h1, h2⟩ := hno hn
        rw [a2 h1, keepH (by simpa using h2)]
      · intro p hp
        rcases lastPart_inv hp with hp | ⟨rfl, hn, hno'⟩
        · exact a3 p hp
        · obtain ⟨d, s, hd, hs, rfl⟩ := p2 (by simpa using hn)
          refine ⟨d, hd, ?_, ?_⟩
          · rw [a4 hno', hs]
          · rw [a4 hno']; simp
      · intro hn
        obtain ⟨h1, h2⟩ := hno hn
        rw [a4 h1, keepS (by simpa using h2)]
      · intro p hp
        rcases lastPart_inv hp with hp | ⟨rfl, hn, hno'⟩
        · exact a5 p hp
        · obtain ⟨d, f, hd, hf, rfl⟩ := p3 hn
          obtain ⟨b1, b2, b3⟩ := a6 hno'
          rw [b1, b2, b3]
          exact ⟨hd, hf, rfl⟩
      · intro hn
        obtain ⟨h1, h2⟩ := hno hn
        obtain ⟨b1, b2, b3⟩ := a6 h1
        obtain ⟨c1, c2, c3⟩ := keepF h2
        exact ⟨b1.trans c1, b2.trans c2, b3.trans c3⟩

theorem exists_last (names : List Bytes) : ∀ (l : List Part), NoPart names l ∨ ∃ p, LastPart names l p := by
  intro l
  induction l with
  | nil => left; intro q hq; cases hq
  | cons q l ih =>
    rcases ih with h | ⟨p, hp⟩
    · by_cases hq : q.name ∈ names
      · exact Or.inr ⟨q, [], l, rfl, hq, h⟩
      · left
        intro x hx
        rcases List.mem_cons.1 hx with rfl | hx
        · exact hq
        · exact h x hx
    · exact Or.inr ⟨p, lastPart_cons hp⟩

/-- **C102**, as far as it holds: a form that is accepted has a file, and the file that is loaded is, byte for byte, the
one sent last, read as what its name says, CSV or Parquet, with the schema sent last and with a header unless
`has_header` was sent with something that does not begin with `true`.  Missing: forms with several files, other ways to
write "true" (`C102_violated`). -/
theorem C102_file_partial {σ : Type} (R : Reader σ) (l : List Part) (f : Form σ) (h : readForm R l = .ok f) :
    (∃ p, LastPart fileNames l p ∧ p.data = some f.file ∧ p.filename = some f.filename) ∧
    f.kind = extension f.filename ∧ (f.kind = ascii "csv" ∨ f.kind = ascii "parquet") ∧
    (NoPart [ascii "schema"] l → f.schema = none) ∧
    (∀ p, LastPart [ascii "schema"] l p → ∃ d, p.data = some d ∧ f.schema = R.parseSchema d ∧ f.schema ≠ none) ∧
    (NoPart [ascii "has_header"] l → f.hasHeader = true) ∧
    (∀ p, LastPart [ascii "has_header"] l p → ∃ d, p.data = some d ∧
      (d = ascii "true" → f.hasHeader = true) ∧ (d = ascii "false" → f.hasHeader = false)) := by
  simp only [readForm] at h
  split at h
  · cases h
  · next st hp =>
    split at h
    · cases h
    · next hk =>
      injection h with h
      subst h
      obtain ⟨a1, a2, a3, a4, a5, a6⟩ := parts_spec R l _ _ hp
      have hk' : st.kind = ascii "csv" ∨ st.kind = ascii "parquet" := by
        by_cases h1 : st.kind = ascii "csv"
        · exact Or.inl h1
        · right
          apply Classical.byContradiction
          intro h2
          exact hk ⟨h1, h2⟩
      have hfile : ∃ p, LastPart fileNames l p := by
        rcases exists_last fileNames l with hn | h
        · obtain ⟨_, b, _⟩ := a6 hn
          have e1 : ([] : Bytes) ≠ ascii "csv" := by decide +kernel
          have e2 : ([] : Bytes) ≠ ascii "parquet" := by decide +kernel
          rw [b] at hk'
          rcases hk' with h | h
          · exact absurd h e1
          · exact absurd h e2
        · exact h
      obtain ⟨p, hp'⟩ := hfile
      obtain ⟨b1, b2, b3⟩ := a5 p hp'
      refine ⟨⟨p, hp', b1, b2⟩, b3, hk', a4, a3, a2, ?_⟩
      intro p hp
      obtain ⟨d, hd, hh⟩ := a1 p hp
      refine ⟨d, hd, ?_, ?_⟩
      · rintro rfl
        rw [hh]; decide +kernel
      · rintro rfl
        rw [hh]; decide +kernel

/-- A form in order is accepted: every part is, and one of them is a file. -/
theorem C102_accepted {σ : Type} (R : Reader σ) (l : List Part) (hdata : ∀ p ∈ l, ∃ d, p.data = some d ∧ R.utf8 d = true ∧
      R.disk d = true)
    (hschema : ∀ p ∈ l, p.name = ascii "schema" → ∀ d, p.data = some d → R.parseSchema d ≠ none)
    (hfile : ∀ p ∈ l, p.name ∈ fileNames → ∃ f, p.filename = some f ∧ f ≠ [] ∧
      (extension f = ascii "csv" ∨ extension f = ascii "parquet"))
    (hone : ∃ p ∈ l, p.name ∈ fileNames) : ∃ f, readForm R l = .ok f := by
  have hparts : ∀ (l : List Part) (st : Form σ), (∀ p ∈ l, ∃ d, p.data = some d ∧ R.utf8 d = true ∧ R.disk d = true) →
      (∀ p ∈ l, p.name = ascii "schema" → ∀ d, p.data = some d → R.parseSchema d ≠ none) →
      (∀ p ∈ l, p.name ∈ fileNames → ∃ f, p.filename = some f ∧ f ≠ []) → ∃ st', parts R st l = .ok st' := by
    intro l
    induction l with
    | nil => intro st _ _ _; exact ⟨st, rfl⟩
    | cons q l ih =>
      intro st h1 h2 h3
      have hq : ∃ st1, part R st q = .ok st1 := by
        obtain ⟨d, hd, hu, hdk⟩ := h1 q (by simp)
        unfold part
        split
        · simp only [hd, headerPart, hu, if_true]; exact ⟨_, rfl⟩
        · split
          · next hn =>
            cases hs : R.parseSchema d with
            | none => exact absurd hs (h2 q (by simp) hn d hd)
            | some s => simp only [hd, schemaPart, hu, if_true, hs]; exact ⟨_, rfl⟩
          · split
            · next hn =>
              obtain ⟨f, hf, hne⟩ := h3 q (by simp) (by simpa [fileNames] using hn)
              simp only [filePart, hf, if_neg hne, hd, hdk, if_true]
              exact ⟨_, rfl⟩
            · exact ⟨_, rfl⟩
      obtain ⟨st1, hq⟩ := hq
      simp only [parts, hq]
      exact ih st1 (fun p hp => h1 p (by simp [hp])) (fun p hp => h2 p (by simp [hp])) (fun p hp => h3 p (by simp [hp]))
  obtain ⟨st, hst⟩ := hparts l { hasHeader := true, schema := none, filename := [], kind := [], file := [] } hdata hschema
    (fun p hp hn => by obtain ⟨f, hf, hne, _⟩ := hfile p hp hn; exact ⟨f, hf, hne⟩)
  obtain ⟨_, _, _, _, a5, _⟩ := parts_spec R l _ _ hst
  have : st.kind = ascii "csv" ∨ st.kind = ascii "parquet" := by
    rcases exists_last fileNames l with hn | ⟨p, hp⟩
    · obtain ⟨p, hp, hpn⟩ := hone
      exact absurd hpn (hn p hp)
    · obtain ⟨_, b2, b3⟩ := a5 p hp
      obtain ⟨a, b, rfl, hpn, _⟩ := hp
      obtain ⟨f, hf, _, hk⟩ := hfile p (by simp) hpn
      rw [b2] at hf
      injection hf with hf
      rw [b3, hf]
      exact hk
  simp only [readForm, hst]
  refine ⟨st, if_neg ?_⟩
  rintro ⟨h1, h2⟩
  rcases this with h | h
  · exact h1 h
  · exact h2 h

/-- **C102 is violated**: of two files only the second is loaded, and the request succeeds; and `has_header=True`, as
some clients write it, is read as "no header", so that the header becomes a row. -/
theorem C102_violated {σ : Type} (R : Reader σ) (hu : ∀ d, R.utf8 d = true) (hd : ∀ d, R.disk d = true) (a b : Bytes) :
    (∃ f, readForm R [⟨ascii "file", some (ascii "a.csv"), some a⟩, ⟨ascii "file", some (ascii "b.csv"), some b⟩] = .ok f ∧
      f.file = b ∧ f.filename = ascii "b.csv") ∧
    (∃ f, readForm R [⟨ascii "has_header", none, some (ascii "True")⟩, ⟨ascii "file", some (ascii "a.csv"), some a⟩] =
      .ok f ∧ f.hasHeader = false) := by
  have e1 : extension (ascii "a.csv") = ascii "csv" := by decide +kernel
  have e2 : extension (ascii "b.csv") = ascii "csv" := by decide +kernel
  have n1 : ascii "file" ≠ ascii "has_header" := by decide +kernel
  have n2 : ascii "file" ≠ ascii "schema" := by decide +kernel
  have m1 : ascii "a.csv" ≠ [] := by decide +kernel
  have m2 : ascii "b.csv" ≠ [] := by decide +kernel
  have m3 : (ascii "true").isPrefixOf (ascii "True") = false := by decide +kernel
  refine ⟨⟨{ hasHeader := true, schema := none, filename := ascii "b.csv", kind := ascii "csv", file := b }, ?_, rfl, rfl⟩,
    ⟨{ hasHeader := false, schema := none, filename := ascii "a.csv", kind := ascii "csv", file := a }, ?_, rfl⟩⟩
  · simp [readForm, parts, part, filePart, n1, n2, m1, m2, hd, e1, e2]
  · simp [readForm, parts, part, filePart, headerPart, n1, n2, m1, hd, hu, e1, m3]

/-- Whatever the form: of an accepted form with several files only the last file is loaded, whatever the others hold; and a
header setting that does not begin with `true` means that there is none. -/
theorem C102_violated_always {σ : Type} (R : Reader σ) (l : List Part) (f : Form σ) (h : readForm R l = .ok f) :
    (∀ q, LastPart fileNames l q → q.data = some f.file ∧ ∀ p ∈ l, p.data ≠ q.data → p.data ≠ some f.file) ∧
    (∀ p d, LastPart [ascii "has_header"] l p → p.data = some d → (ascii "true").isPrefixOf d = false →
      f.hasHeader = false) := by
  unfold readForm at h
  split at h
  · cases h
  · next st hst =>
    have key := parts_spec R l _ st hst
    split at h
    · cases h
    · injection h with h
      subst h
      obtain ⟨k1, _, _, _, k5, _⟩ := key
      refine ⟨?_, ?_⟩
      · intro q hq
        have := (k5 q hq).1
        exact ⟨this, fun p _ hne he => hne (he.trans this.symm)⟩
      · intro p d hp hd ht
        obtain ⟨d', h1, h2⟩ := k1 p hp
        rw [hd] at h1
        injection h1 with h1
        subst h1
        rw [h2, ht]

/-- **C102** for whole requests: only a caller who may write loads something, into the table of the path. -/
theorem C102_request {σ : Type} (R : Reader σ) (hash : Bytes → Bytes) (ht : Front.Str → Front.Str) (pol : Policy)
    (r : Req) (db s t : Bytes) (f : Form σ) (h : ask R hash ht pol r = .load db s t f) :
    r.method = .post ∧
    (segments r.path = [db, ascii "upload", s, t] ∨ (segments r.path = [ascii "upload", s, t] ∧ db = ascii "default")) ∧
    (∃ pr, Front.headerToPrincipal ht r.auth pol = .ok pr ∧ Front.canPerform pr .write pol = true) ∧
    readForm R r.form = .ok f := by
  unfold ask at h
  cases hd : dispatch r.method (segments r.path) with
  | error s => rw [hd] at h; cases h
  | ok tg =>
    rw [hd] at h
    have ho := C100_only _ _ _ hd
    cases tg with
    | health => cases h
    | query d =>
      simp only at h
      split at h
      · cases h
      · split at h <;> cases h
    | read d x =>
      simp only at h
      split at h
      · cases h
      · split at h <;> cases h
    | upload d s' t' =>
      simp only at h ho
      split at h
      · cases h
      · next pr hp =>
        split at h
        · next hw =>
          split at h
          · cases h
          · next f' hf =>
            injection h with h1 h2 h3 h4
            subst h1 h2 h3 h4
            exact ⟨ho.1, ho.2, ⟨pr, hp, hw⟩, hf⟩
        · cases h

/-! ### concrete cases -/

example : address [ascii "my db", ascii "q"] = ascii "/my%20db/q" := by decide +kernel

example : dispatch .post (segments (ascii "/upload/public/t_1")) = .ok (.upload (ascii "default") (ascii "public") (ascii "t_1")) := by
  rfl

example : dispatch .get (segments (ascii "/upload/public/t_1")) = .error 405 := by rfl

example : dispatch .get (segments (ascii "//q/x")) = .error 404 := by rfl

example : encodeText (ascii "SELECT 1.5") = ascii "SELECT%201.5" := by decide +kernel

example : (readForm (σ := Nat) { utf8 := fun _ => true, parseSchema := fun _ => some 3, disk := fun _ => true }
      [⟨ascii "schema", none, some (ascii "{}")⟩, ⟨ascii "file", some (ascii "a.b.csv"), some [1, 2]⟩,
        ⟨ascii "has_header", none, some (ascii "false")⟩]).toOption.map (fun f => (f.file, f.schema, f.hasHeader, f.kind)) =
    some ([1, 2], some 3, false, ascii "csv") := by
  decide +kernel

end Seafowl.Routes
