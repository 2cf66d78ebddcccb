import Verif.Misc.WasmProps

/-!
# What a WASM function can put into a column (C138)

A function is foreign code: whatever it returns, the column must hold values of its declared type, or the query
must fail.
-/

namespace Seafowl.Wasm

/-- A value of the type as SQL understands it: as `Holds`, but a decimal has at most the declared number of
digits. -/
def InType : Ty → Val → Prop
  | .decimal p s, .dec p' s' i => p = p' ∧ s = s' ∧ -(10 ^ p : Int) < i ∧ i < 10 ^ p
  | .decimal _ _, _ => False
  | ty, v => Holds ty v

variable (toF64 : Int → Nat) (widen : Nat → Nat)

theorem asI64_range {m : MP} {i : Int} (h : m.asI64 = some i) :
    -9223372036854775808 ≤ i ∧ i ≤ 9223372036854775807 := by
  cases m <;> simp only [MP.asI64] at h
  all_goals try cases h
  next j =>
    split at h
    · next hf =>
      injection h with h
      subst h
      simp only [fits, decide_eq_true_eq] at hf
      omega
    · cases h

/-- **C138.**  For every type but decimals: whatever the function returns, what arrives in the column is a value
of the declared type. -/
theorem C138_partial (ty : Ty) (m : MP) (v : Val) (hty : ∀ p s, ty ≠ .decimal p s)
    (h : decodeVal toF64 widen ty m = .ok v) : InType ty v := by
  cases ty with
  | decimal p s => exact absurd rfl (hty p s)
  | smallint =>
    simp only [decodeVal] at h
    split at h
    · cases h
    · split at h
      · next hf =>
        injection h with h; subst h
        simp only [fits, decide_eq_true_eq] at hf
        simp only [InType, Holds]; omega
      · cases h
  | int =>
    simp only [decodeVal] at h
    split at h
    · cases h
    · split at h
      · next hf =>
        injection h with h; subst h
        simp only [fits, decide_eq_true_eq] at hf
        simp only [InType, Holds]; omega
      · cases h
  | bigint =>
    simp only [decodeVal] at h
    split at h
    · cases h
    · next hi => injection h with h; subst h; exact asI64_range hi
  | text =>
    simp only [decodeVal] at h
    split at h
    · injection h with h; subst h; trivial
    · cases h
  | date =>
    simp only [decodeVal] at h
    split at h
    · cases h
    · split at h
      · next hf =>
        injection h with h; subst h
        simp only [fits, decide_eq_true_eq] at hf
        simp only [InType, Holds]; omega
      · cases h
  | timestamp =>
    simp only [decodeVal] at h
    split at h
    · cases h
    · next hi => injection h with h; subst h; exact asI64_range hi
  | boolean =>
    simp only [decodeVal] at h
    split at h
    · injection h with h; subst h; trivial
    · cases h
  | double =>
    simp only [decodeVal] at h
    split at h
    · injection h with h; subst h; trivial
    · injection h with h; subst h; trivial
    · injection h with h; subst h; trivial
    · cases h
  | real =>
    simp only [decodeVal] at h
    split at h
    · injection h with h; subst h; trivial
    · cases h

/-- What a returned value stands for in a column of the type: the same number, text or truth value; in a DOUBLE column also the
integers and the single precision numbers, as the library converts them. -/
def Means : Ty → MP → Val → Prop
  | .smallint, .int i, .i16 j => j = i
  | .int, .int i, .i32 j => j = i
  | .bigint, .int i, .i64 j => j = i
  | .date, .int i, .date j => j = i
  | .timestamp, .int i, .ts j => j = i
  | .text, .str a, .str b => b = a
  | .boolean, .bool a, .bool b => b = a
  | .real, .f32 a, .f32 b => b = a
  | .double, .f64 a, .f64 b => b = a
  | .double, .f32 a, .f64 b => b = widen a
  | .double, .int i, .f64 b => b = toF64 i
  | _, _, _ => False

/-- For every type but decimals: a result is accepted exactly if it stands for a value of the declared type, and this is the
value that arrives. -/
theorem C138_exact (ty : Ty) (m : MP) (v : Val) (hty : ∀ p s, ty ≠ .decimal p s) :
    decodeVal toF64 widen ty m = .ok v ↔ Means toF64 widen ty m v ∧ InType ty v := by
  refine ⟨fun h => ⟨?_, C138_partial toF64 widen ty m v hty h⟩, ?_⟩
  · cases ty <;> cases m <;> simp only [decodeVal, MP.asI64] at h <;> first
      | exact absurd rfl (hty _ _)
      | (cases h; done)
      | (injection h with h; subst h; rfl)
      | (split at h
         · cases h
         · next hi =>
           split at hi
           · injection hi with hi
             subst hi
             first
               | (injection h with h; subst h; rfl)
               | (split at h
                  · injection h with h; subst h; rfl
                  · cases h)
           · cases hi)
  · rintro ⟨h1, h2⟩
    cases ty <;> cases m <;> cases v <;> first
      | exact absurd rfl (hty _ _)
      | (exact h1.elim; done)
      | (simp only [Means] at h1
         subst h1
         simp only [InType, Holds] at h2
         first
           | rfl
           | (simp only [decodeVal, MP.asI64]
              rw [if_pos (fits64 _ (by omega))]
              all_goals (simp only; rw [if_pos (by simp only [fits, decide_eq_true_eq]; omega)])))

/-- Decimals have the declared precision and scale, as labels, the scale is not negative, and the number fits
into 128 bits.  -/
theorem C138_decimal (p : Nat) (s : Int) (m : MP) (v : Val)
    (h : decodeVal toF64 widen (.decimal p s) m = .ok v) :
    ∃ i, v = .dec p s i ∧ p ≤ 255 ∧ 0 ≤ s ∧ s ≤ 127 ∧
      -170141183460469231731687303715884105728 ≤ i ∧ i ≤ 170141183460469231731687303715884105727 := by
  simp only [decodeVal] at h
  split at h
  · next mp ms mh ml =>
    simp only [decodeDec] at h
    split at h
    · cases h
    · next p' hp' =>
      split at h
      · cases h
      · next hpp =>
        split at h
        · cases h
        · next s' hs' =>
          split at h
          · cases h
          · next hss =>
            split at h
            · next hh ll hh1 hl1 =>
              injection h with h
              subst h
              have hs0 : 0 ≤ s' := by
                cases ms <;> simp only [MP.asU64] at hs'
                all_goals try cases hs'
                next j =>
                  split at hs'
                  · next hr => injection hs' with hs'; subst hs'; exact hr.1
                  · cases hs'
              refine ⟨_, rfl, by omega, by omega, by omega, ?_⟩
              unfold joinHalves
              generalize wrap 128 (hh * 2 ^ 64) = w
              unfold wrap
              constructor <;> omega
            · cases h
  · cases h

/-- Every number of up to 38 digits can be returned as a decimal of any declared precision. -/
theorem C138_any_decimal (p : Nat) (s i : Int) (hp : p ≤ 255) (hs : 0 ≤ s ∧ s ≤ 127)
    (hi : -(10 ^ 38) ≤ i ∧ i ≤ 10 ^ 38) :
    ∃ m, decodeVal toF64 widen (.decimal p s) m = .ok (.dec p s i) := by
  have hd := Int.mul_ediv_add_emod i (2 ^ 64)
  by_cases hl : i % 2 ^ 64 < 2 ^ 63
  · refine ⟨.arr [.int p, .int s, .int (i / 2 ^ 64), .int (i % 2 ^ 64)], ?_⟩
    have h1 := decodeDec_ok p s (i / 2 ^ 64) (i % 2 ^ 64) hp hs (fits64 _ (by omega)) (fits64 _ (by omega))
    have h2 : joinHalves (i / 2 ^ 64) (i % 2 ^ 64) = i := by
      have h3 : i / 2 ^ 64 * 2 ^ 64 = i - i % 2 ^ 64 := by omega
      unfold joinHalves
      have h4 : wrap 128 (i / 2 ^ 64 * 2 ^ 64) = i - i % 2 ^ 64 := by
        rw [h3]; unfold wrap; omega
      rw [h4]
      have : i % 2 ^ 64 + (i - i % 2 ^ 64) = i := by omega
      rw [this]; unfold wrap; omega
    rw [h2] at h1
    exact h1
  · refine ⟨.arr [.int p, .int s, .int (i / 2 ^ 64 + 1), .int (i % 2 ^ 64 - 2 ^ 64)], ?_⟩
    have h1 := decodeDec_ok p s (i / 2 ^ 64 + 1) (i % 2 ^ 64 - 2 ^ 64) hp hs (fits64 _ (by omega)) (fits64 _ (by omega))
    have h2 : joinHalves (i / 2 ^ 64 + 1) (i % 2 ^ 64 - 2 ^ 64) = i := by
      have h3 : (i / 2 ^ 64 + 1) * 2 ^ 64 = i - i % 2 ^ 64 + 2 ^ 64 := by omega
      unfold joinHalves
      have h4 : wrap 128 ((i / 2 ^ 64 + 1) * 2 ^ 64) = i - i % 2 ^ 64 + 2 ^ 64 := by
        rw [h3]; unfold wrap; omega
      rw [h4]
      have : i % 2 ^ 64 - 2 ^ 64 + (i - i % 2 ^ 64 + 2 ^ 64) = i := by omega
      rw [this]; unfold wrap; omega
    rw [h2] at h1
    exact h1

/-- **C138 (violation).**  For every declared decimal type there are results that are accepted although they
have more digits than declared. -/
theorem C138_violated_decimal (p : Nat) (s : Int) (hp : p ≤ 38) (hs : 0 ≤ s ∧ s ≤ 127) :
    ∃ m v, decodeVal toF64 widen (.decimal p s) m = .ok v ∧ ¬ InType (.decimal p s) v := by
  have h10 : (10 : Int) ^ p ≤ 10 ^ 38 := by
    have : (10 : Nat) ^ p ≤ 10 ^ 38 := Nat.pow_le_pow_right (by omega) hp
    exact_mod_cast this
  have h0 : (0 : Int) ≤ 10 ^ p := by
    have : (0 : Nat) ≤ 10 ^ p := Nat.zero_le _
    exact_mod_cast this
  obtain ⟨m, hm⟩ := C138_any_decimal toF64 widen p s (10 ^ p) (by omega) hs ⟨by omega, h10⟩
  refine ⟨m, _, hm, ?_⟩
  rintro ⟨_, _, _, h⟩
  omega

/-- A function cannot return NULL: it is an error for every type. -/
theorem C138_nil (ty : Ty) : decodeVal toF64 widen ty .nil = .error .error := by
  cases ty <;> rfl

/-- A DECIMAL(3, 1) that holds 10000.0. -/
example : decodeVal toF64 widen (.decimal 3 1) (.arr [.int 3, .int 1, .int 0, .int 100000]) =
    .ok (.dec 3 1 100000) := rfl

example : decodeVal toF64 widen .smallint (.int 7) = .ok (.i16 7) ∧
    decodeVal toF64 widen .smallint (.int 70000) = .error .error := ⟨rfl, rfl⟩

end Seafowl.Wasm
