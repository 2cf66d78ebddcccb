import Verif.Misc.Listen
import Verif.Store.HttpMetaProps
import Mathlib.Data.List.Induction
import Mathlib.Data.List.TakeWhile

/-!
C132: a frontend listens at the address and port of the configuration.
-/

namespace Seafowl.Listen

open Seafowl.Store.Http (decimal isDigit digitsValue ascii decimal_digits decimal_ne_nil digitsValue_decimal takeWhile_digits
  dropWhile_digits)

variable {α : Type}

/-! ### specification -/

/-- How an address of version 4 is written: four numbers below 256 with dots. -/
inductive Dotted : List Nat → Ip α → Prop
  | mk {a b c d : Nat} : a < 256 → b < 256 → c < 256 → d < 256 →
      Dotted (decimal a ++ 46 :: decimal b ++ 46 :: decimal c ++ 46 :: decimal d) (.v4 a b c d)

/-- The texts that stand for an address. -/
inductive Text (v6 : List Nat → Option α) : List Nat → Ip α → Prop
  | v4 {t : List Nat} {ip : Ip α} : Dotted t ip → Text v6 t ip
  | v6 {t : List Nat} {x : α} : 93 ∉ t → v6 t = some x → Text v6 (91 :: t ++ [93]) (.v6 x)

/-! ### numbers -/

theorem decimal_small {n : Nat} (h : n < 256) : (decimal n).length ≤ 3 := by
  rw [decimal]
  split
  · simp
  · rw [decimal]
    split
    · simp
    · rw [decimal, if_pos (by omega)]
      simp

theorem head_append {l m : List Nat} (h : l ≠ []) : (l ++ m).head? = l.head? := by
  cases l with
  | nil => exact absurd rfl h
  | cons x l => rfl

theorem decimal_head (n : Nat) : (decimal n).head? = some 48 → n = 0 := by
  induction n using Nat.strongRecOn with
  | _ n ih =>
    intro h
    rw [decimal] at h
    split at h
    · simp at h
      omega
    · have hne := decimal_ne_nil (n / 10)
      rw [head_append hne] at h
      have := ih (n / 10) (by omega) h
      omega

theorem decimal_canon (ds : List Nat) : ds ≠ [] → (∀ c ∈ ds, isDigit c = true) → (ds.head? = some 48 → ds.length ≤ 1) →
    decimal (digitsValue ds) = ds := by
  induction ds using List.reverseRecOn with
  | nil => intro h; exact absurd rfl h
  | append_singleton l x ih =>
    intro _ hd hz
    have hx := hd x (by simp)
    simp only [isDigit, Bool.and_eq_true, decide_eq_true_eq] at hx
    have hval : digitsValue (l ++ [x]) = 10 * digitsValue l + (x - 48) := by simp [digitsValue]
    rw [hval]
    by_cases hl : l = []
    · subst hl
      rw [decimal, if_pos (by simp [digitsValue]; omega)]
      simp [digitsValue]
      omega
    · have hcanon := ih hl (fun c hc => hd c (by simp [hc])) (by
        intro h0
        have h1 := hz (by rw [head_append hl]; exact h0)
        rw [List.length_append, List.length_singleton] at h1
        omega)
      have hpos : 0 < digitsValue l := by
        rcases Nat.eq_zero_or_pos (digitsValue l) with h0 | h0
        · rw [h0] at hcanon
          rw [decimal, if_pos (by omega)] at hcanon
          have := hz (by rw [head_append hl, ← hcanon]; rfl)
          rw [← hcanon] at this
          simp at this
        · exact h0
      rw [decimal, if_neg (by omega)]
      have h1 : (10 * digitsValue l + (x - 48)) / 10 = digitsValue l := by omega
      have h2 : 48 + (10 * digitsValue l + (x - 48)) % 10 = x := by omega
      rw [h1, h2, hcanon]

/-- The rest of a text does not go on with a digit. -/
def Ends (s : List Nat) : Prop := ∀ c cs, s = c :: cs → isDigit c = false

theorem octet_decimal {n : Nat} (h : n < 256) {rest : List Nat} (hr : Ends rest) : octet (decimal n ++ rest) = some (n, rest) := by
  have ht := takeWhile_digits (decimal_digits n) hr
  have hd := dropWhile_digits (decimal_digits n) hr
  have hl := decimal_small h
  have hne := decimal_ne_nil n
  unfold octet number
  simp only [ht, hd, digitsValue_decimal]
  have h0 : ¬ ((decimal n).head? = some 48 ∧ 1 < (decimal n).length) := by
    rintro ⟨h1, h2⟩
    rw [decimal_head n h1] at h2
    rw [decimal] at h2
    simp at h2
  have h2 : decide (3 < (decimal n).length) = false := by simpa using hl
  simp [hne, h2, h]
  simpa using h0

theorem octet_some {s rest : List Nat} {n : Nat} (h : octet s = some (n, rest)) : n < 256 ∧ s = decimal n ++ rest := by
  unfold octet number at h
  simp only [Option.any_some] at h
  split at h
  · cases h
  · next h1 =>
    split at h
    · cases h
    · split at h
      · cases h
      · next h3 =>
        split at h
        · cases h
        · next h4 =>
          cases h
          refine ⟨by omega, ?_⟩
          rw [decimal_canon]
          · exact (List.takeWhile_append_dropWhile).symm
          · simpa using h1
          · intro c hc
            exact List.mem_takeWhile_imp hc
          · intro h0
            simp only [Bool.not_false, Bool.true_and, h0, beq_self_eq_true, decide_eq_true_eq] at h3
            omega

theorem given_some {c : Nat} {s r : List Nat} (h : given c s = some r) : s = c :: r := by
  cases s with
  | nil => cases h
  | cons x s =>
    simp only [given] at h
    split at h
    · next e => cases h; rw [e]
    · cases h

theorem dotOctet_decimal {n : Nat} (h : n < 256) {rest : List Nat} (hr : Ends rest) :
    dotOctet (46 :: decimal n ++ rest) = some (n, rest) := by
  show (given 46 (46 :: (decimal n ++ rest))).bind octet = _
  simp only [given, if_true, Option.bind_some]
  exact octet_decimal h hr

theorem dotOctet_some {s rest : List Nat} {n : Nat} (h : dotOctet s = some (n, rest)) : n < 256 ∧ s = 46 :: decimal n ++ rest := by
  unfold dotOctet at h
  rw [Option.bind_eq_some_iff] at h
  obtain ⟨t, h1, h2⟩ := h
  obtain ⟨h3, h4⟩ := octet_some h2
  exact ⟨h3, by rw [given_some h1, h4]; rfl⟩

theorem ends_dot (s : List Nat) : Ends (46 :: s) := by
  intro c cs h
  cases h
  rfl

theorem ends_colon (s : List Nat) : Ends (58 :: s) := by
  intro c cs h
  cases h
  rfl

theorem readV4_dotted {t : List Nat} {ip : Ip α} (h : Dotted t ip) {rest : List Nat} (hr : Ends rest) :
    readV4 (t ++ rest) = some (ip, rest) := by
  obtain ⟨ha, hb, hc, hd⟩ := h
  rename_i a b c d
  have e : decimal a ++ 46 :: decimal b ++ 46 :: decimal c ++ 46 :: decimal d ++ rest =
      decimal a ++ (46 :: decimal b ++ (46 :: decimal c ++ (46 :: decimal d ++ rest))) := by simp
  rw [e]
  unfold readV4
  rw [octet_decimal ha (by exact ends_dot _)]
  simp only [Option.bind_some]
  rw [dotOctet_decimal hb (by exact ends_dot _)]
  simp only [Option.bind_some]
  rw [dotOctet_decimal hc (by exact ends_dot _)]
  simp only [Option.bind_some]
  rw [dotOctet_decimal hd hr]
  rfl

theorem readV4_some {s rest : List Nat} {ip : Ip α} (h : readV4 s = some (ip, rest)) : ∃ t, Dotted t ip ∧ s = t ++ rest := by
  unfold readV4 at h
  rw [Option.bind_eq_some_iff] at h
  obtain ⟨⟨a, s1⟩, h1, h⟩ := h
  rw [Option.bind_eq_some_iff] at h
  obtain ⟨⟨b, s2⟩, h2, h⟩ := h
  rw [Option.bind_eq_some_iff] at h
  obtain ⟨⟨c, s3⟩, h3, h⟩ := h
  rw [Option.map_eq_some_iff] at h
  obtain ⟨⟨d, s4⟩, h4, h⟩ := h
  cases h
  obtain ⟨a1, rfl⟩ := octet_some h1
  obtain ⟨b1, e2⟩ := dotOctet_some h2
  obtain ⟨c1, e3⟩ := dotOctet_some h3
  obtain ⟨d1, e4⟩ := dotOctet_some h4
  simp only at e2 e3 e4
  refine ⟨_, .mk a1 b1 c1 d1, ?_⟩
  rw [e2, e3, e4]
  simp

theorem readV6_some {v6 : List Nat → Option α} {s rest : List Nat} {ip : Ip α} (h : readV6 v6 s = some (ip, rest)) :
    ∃ t, Text v6 t ip ∧ s = t ++ rest := by
  unfold readV6 at h
  rw [Option.bind_eq_some_iff] at h
  obtain ⟨t, h1, h⟩ := h
  rw [Option.bind_eq_some_iff] at h
  obtain ⟨x, h2, h⟩ := h
  rw [Option.map_eq_some_iff] at h
  obtain ⟨r, h3, h⟩ := h
  cases h
  refine ⟨_, .v6 ?_ h2, ?_⟩
  · intro hm
    have := List.mem_takeWhile_imp hm
    simp at this
  · rw [given_some h1]
    have := given_some h3
    have e : t = t.takeWhile (· != 93) ++ t.dropWhile (· != 93) := List.takeWhile_append_dropWhile.symm
    rw [this] at e
    conv => lhs; rw [e]
    simp

theorem readPort_decimal {p : Nat} (h : p < 65536) : readPort (58 :: decimal p) = some (p, []) := by
  have ht := takeWhile_digits (decimal_digits p) (rest := []) (by simp)
  have hd := dropWhile_digits (decimal_digits p) (rest := []) (by simp)
  simp only [List.append_nil] at ht hd
  simp [readPort, given, number, ht, hd, digitsValue_decimal, decimal_ne_nil, h]

/-! ### C132 -/

/-- **C132.**  With the text of an address as host, the frontend listens at this address and at the port. -/
theorem C132_listens (v6 : List Nat → Option α) {host : List Nat} {ip : Ip α} (h : Text v6 host ip) {port : Nat} (hp : port < 65536) :
    start v6 host port = .listens ip port := by
  have key : ((readV4 (host ++ 58 :: decimal port)).orElse fun _ => readV6 v6 (host ++ 58 :: decimal port)) =
      some (ip, 58 :: decimal port) := by
    cases h with
    | v4 h => rw [readV4_dotted h (ends_colon _)]; rfl
    | @v6 t x h1 h2 =>
      have hno : readV4 (α := α) ((91 :: t ++ [93]) ++ 58 :: decimal port) = none := by
        have hdig : isDigit 91 = false := rfl
        simp [readV4, octet, number, hdig]
      rw [hno]
      simp only [Option.orElse_none]
      have ht : (t ++ (93 :: 58 :: decimal port)).takeWhile (· != 93) = t := by
        have hall : ∀ c ∈ t, (c != 93) = true := fun c hc => by
          simp only [bne_iff_ne]
          rintro rfl
          exact h1 hc
        rw [List.takeWhile_append_of_pos hall]
        simp
      have hd : (t ++ (93 :: 58 :: decimal port)).dropWhile (· != 93) = 93 :: 58 :: decimal port := by
        have hall : ∀ c ∈ t, (c != 93) = true := fun c hc => by
          simp only [bne_iff_ne]
          rintro rfl
          exact h1 hc
        rw [List.dropWhile_append_of_pos hall]
        simp
      have e : (91 :: t ++ [93]) ++ 58 :: decimal port = 91 :: (t ++ (93 :: 58 :: decimal port)) := by simp
      rw [e]
      simp only [readV6, given, if_true, Option.bind_some, ht, hd, h2, Option.map_some]
  unfold start parseAddr
  rw [key]
  simp only [Option.bind_some]
  rw [readPort_decimal hp]
  simp

theorem digit_colon {l : List Nat} (h : ∀ c ∈ l, isDigit c = true) : 58 ∉ l := by
  intro hm
  have := h 58 hm
  cases this

theorem split_colon {a b ds es : List Nat} (hd : 58 ∉ ds) (he : 58 ∉ es) (h : a ++ 58 :: ds = b ++ 58 :: es) : a = b ∧ ds = es := by
  rw [List.append_eq_append_iff] at h
  rcases h with ⟨c, h1, h2⟩ | ⟨c, h1, h2⟩
  · cases c with
    | nil =>
      simp only [List.nil_append, List.cons.injEq, true_and] at h2
      exact ⟨by simpa using h1.symm, h2⟩
    | cons x c =>
      simp only [List.cons_append, List.cons.injEq] at h2
      exact absurd (by rw [h2.2]; simp) hd
  · cases c with
    | nil =>
      simp only [List.nil_append, List.cons.injEq, true_and] at h2
      exact ⟨by simpa using h1, h2.symm⟩
    | cons x c =>
      simp only [List.cons_append, List.cons.injEq] at h2
      exact absurd (by rw [h2.2]; simp) he

/-- **C132.**  A frontend never listens anywhere else: if it listens, then at the configured port, and the host is the text of the
address, whatever host is configured. -/
theorem C132_exact (v6 : List Nat → Option α) {host : List Nat} {port p : Nat} {ip : Ip α} (h : start v6 host port = .listens ip p) :
    p = port ∧ port < 65536 ∧ Text v6 host ip := by
  unfold start at h
  split at h
  · next ip' p' hp =>
    cases h
    unfold parseAddr at hp
    rw [Option.bind_eq_some_iff] at hp
    obtain ⟨⟨ip1, r⟩, h1, hp⟩ := hp
    rw [Option.bind_eq_some_iff] at hp
    obtain ⟨⟨q, r2⟩, h2, hp⟩ := hp
    simp only at h2 hp
    split at hp
    · next hnil =>
      cases hp
      subst hnil
      have htext : ∃ t, Text v6 t ip ∧ host ++ 58 :: decimal port = t ++ r := by
        cases hv : readV4 (α := α) (host ++ 58 :: decimal port) with
        | some x =>
          rw [hv] at h1
          simp only [Option.orElse_some, Option.some.injEq] at h1
          subst h1
          obtain ⟨t, ht1, ht2⟩ := readV4_some hv
          exact ⟨t, .v4 ht1, ht2⟩
        | none =>
          rw [hv] at h1
          simp only [Option.orElse_none] at h1
          exact readV6_some h1
      obtain ⟨t, ht, he⟩ := htext
      -- the port
      unfold readPort at h2
      rw [Option.bind_eq_some_iff] at h2
      obtain ⟨s, hs, h2⟩ := h2
      have hr := given_some hs
      unfold number at h2
      simp only [Option.any_none, Bool.false_eq_true, if_false, Bool.not_true, Bool.false_and] at h2
      split at h2
      · cases h2
      · split at h2
        · cases h2
        · next hb =>
          simp only [Option.some.injEq, Prod.mk.injEq] at h2
          have hdig : s.takeWhile isDigit = s := by
            have := List.takeWhile_append_dropWhile (p := isDigit) (l := s)
            rw [h2.2, List.append_nil] at this
            exact this
          have hall : ∀ c ∈ s, isDigit c = true := by
            intro c hc
            rw [← hdig] at hc
            exact List.mem_takeWhile_imp hc
          rw [hr] at he
          obtain ⟨e1, e2⟩ := split_colon (digit_colon (decimal_digits port)) (digit_colon hall) he
          rw [hdig, ← e2, digitsValue_decimal] at h2 hb
          refine ⟨h2.1.symm, by omega, ?_⟩
          rw [e1]
          exact ht
    · cases hp
  · cases h

/-- **C132 is violated** by names and by addresses of version 6 as they are usually written: with a host that does not begin with a
digit or a bracket, or that has a colon and no bracket in front, the frontend panics, whatever the port. -/
theorem C132_violated_names (v6 : List Nat → Option α) (host : List Nat) (port : Nat)
    (h : (∃ c cs, host = c :: cs ∧ isDigit c = false ∧ c ≠ 91) ∨ (58 ∈ host ∧ host.head? ≠ some 91)) :
    start v6 host port = .panics := by
  cases hs : start v6 host port with
  | panics => rfl
  | listens ip p =>
    exfalso
    obtain ⟨-, -, ht⟩ := C132_exact v6 hs
    cases ht with
    | v4 ht =>
      obtain ⟨ha, hb, hc, hd⟩ := ht
      rename_i a b c d
      rcases h with ⟨x, xs, h1, h2, -⟩ | ⟨h1, -⟩
      · cases hda : decimal a with
        | nil => exact decimal_ne_nil a hda
        | cons y ys =>
          rw [hda] at h1
          simp only [List.cons_append, List.cons.injEq] at h1
          have := decimal_digits a y (by rw [hda]; simp)
          rw [h1.1, h2] at this
          cases this
      · have hno : ∀ n, 58 ∉ decimal n := fun n => digit_colon (decimal_digits n)
        simp [hno] at h1
    | @v6 t x h1 h2 =>
      rcases h with ⟨y, ys, h3, -, h5⟩ | ⟨-, h4⟩
      · simp only [List.cons_append, List.cons.injEq] at h3
        exact h5 h3.1.symm
      · simp at h4

/-! ### concrete cases -/

/-- The addresses of version 6 of the examples. -/
def loopback (t : List Nat) : Option Nat := if t = ascii "::1" then some 1 else none

example : start loopback (ascii "127.0.0.1") 8080 = .listens (.v4 127 0 0 1) 8080 ∧
    start loopback (ascii "[::1]") 80 = .listens (.v6 1) 80 ∧
    start loopback (ascii "::1") 80 = .panics ∧ start loopback (ascii "localhost") 8080 = .panics ∧
    start loopback (ascii "127.0.0.1:80") 80 = .panics ∧ start loopback (ascii "10.0.0.01") 80 = .panics ∧
    start loopback (ascii "256.0.0.1") 80 = .panics := by
  have h1 : decimal 8080 = ascii "8080" := by simp [decimal, ascii]
  have h2 : decimal 80 = ascii "80" := by simp [decimal, ascii]
  unfold start
  rw [h1, h2]
  decide +kernel

example : Text loopback (ascii "[::1]") (.v6 1) := .v6 (t := ascii "::1") (by decide) rfl

end Seafowl.Listen
