/-
C50: WASM values survive the call interface.  C67: the function is applied row by row.
C68: the arguments stay inside their buffer.
-/
import Verif.Misc.Wasm

namespace Seafowl.Wasm

/-! ### C50 -/

/-- A value a column of the declared type can hold. -/
def Holds : Ty → Val → Prop
  | .smallint, .i16 i => -32768 ≤ i ∧ i ≤ 32767
  | .int, .i32 i => -2147483648 ≤ i ∧ i ≤ 2147483647
  | .bigint, .i64 i => -9223372036854775808 ≤ i ∧ i ≤ 9223372036854775807
  | .text, .str _ => True
  | .decimal p s, .dec p' s' i => p = p' ∧ s = s' ∧ 1 ≤ p ∧ p ≤ 38 ∧ -38 ≤ s ∧ s ≤ 38 ∧
      -(10 ^ 38) < i ∧ i < 10 ^ 38
  | .real, .f32 _ => True
  | .double, .f64 _ => True
  | .boolean, .bool _ => True
  | .date, .date i => -2147483648 ≤ i ∧ i ≤ 2147483647
  | .timestamp, .ts i => -9223372036854775808 ≤ i ∧ i ≤ 9223372036854775807
  | _, _ => False

/-- Decimals whose lower 64 bits have the top bit set: about half of all that do not fit into 63
bits, and all small negative ones. -/
def Broken : Val → Prop
  | .dec _ _ i => 2 ^ 63 ≤ i % 2 ^ 64
  | _ => False

theorem wrap64_eq (i : Int) : wrap 64 i = if i % 2 ^ 64 < 2 ^ 63 then i % 2 ^ 64 else i % 2 ^ 64 - 2 ^ 64 := by
  unfold wrap
  split <;> omega

theorem wrap_small (i : Int) (h : -(2 ^ 63) ≤ i ∧ i < 2 ^ 63) : wrap 64 i = i := by
  unfold wrap; omega

theorem fits64 (i : Int) (h : -(2 ^ 63) ≤ i ∧ i < 2 ^ 63) : fits 64 i = true := by
  unfold fits; simp only [decide_eq_true_eq]; exact h

theorem wrap_fits (i : Int) : fits 64 (wrap 64 i) = true := by
  refine fits64 _ ?_
  unfold wrap; omega

theorem asI64_some (i : Int) (h : fits 64 i = true) : (MP.int i).asI64 = some i := by
  simp only [MP.asI64, h, if_true]

theorem asU64_some (i : Int) (h : 0 ≤ i ∧ i < 2 ^ 64) : (MP.int i).asU64 = some i := by
  simp only [MP.asU64]
  rw [if_pos h]

theorem asU64_none (i : Int) (h : ¬ (0 ≤ i ∧ i < 2 ^ 64)) : (MP.int i).asU64 = none := by
  simp only [MP.asU64]
  rw [if_neg h]

/-- About arbitrary values, so that nothing is evaluated. -/
theorem decodeDec_some (p : Nat) (s p' s' h l : Int) (mp ms mh ml : MP) (h1 : mp.asU64 = some p')
    (a1 : ¬ (p' ≠ p ∨ 255 < p')) (h2 : ms.asU64 = some s') (a2 : ¬ (s' ≠ s ∨ 127 < s'))
    (h3 : mh.asI64 = some h) (h4 : ml.asI64 = some l) :
    decodeDec p s mp ms mh ml = .ok (.dec p s (joinHalves h l)) := by
  unfold decodeDec
  simp only [h1, if_neg a1, h2, if_neg a2, h3, h4]

theorem decodeDec_none (p : Nat) (s p' : Int) (mp ms mh ml : MP) (h1 : mp.asU64 = some p')
    (a1 : ¬ (p' ≠ p ∨ 255 < p')) (h2 : ms.asU64 = none) :
    decodeDec p s mp ms mh ml = .error .error := by
  unfold decodeDec
  simp only [h1, if_neg a1, h2]

theorem decodeDec_ok (p : Nat) (s h l : Int) (hp : p ≤ 255) (hs : 0 ≤ s ∧ s ≤ 127)
    (hh : fits 64 h = true) (hl : fits 64 l = true) :
    decodeDec p s (.int p) (.int s) (.int h) (.int l) = .ok (.dec p s (joinHalves h l)) :=
  decodeDec_some p s p s h l _ _ _ _ (asU64_some (p : Int) (by omega)) (by omega)
    (asU64_some s (by omega)) (by omega) (asI64_some h hh) (asI64_some l hl)

theorem decodeDec_negative (p : Nat) (s : Int) (mh ml : MP) (hp : p ≤ 255) (hs : s < 0) :
    decodeDec p s (.int p) (.int s) mh ml = .error .error :=
  decodeDec_none p s p _ _ _ _ (asU64_some (p : Int) (by omega)) (by omega)
    (asU64_none s (by omega))

/-- The two halves put together again. -/
theorem halves (i : Int) (h : -(10 ^ 38) < i ∧ i < 10 ^ 38) :
    joinHalves (highHalf i) (lowHalf i) =
      if i % 2 ^ 64 < 2 ^ 63 then i else i - 2 ^ 64 := by
  unfold joinHalves highHalf lowHalf
  have hh : wrap 64 (i / 2 ^ 64) = i / 2 ^ 64 := wrap_small _ (by omega)
  have hd := Int.mul_ediv_add_emod i (2 ^ 64)
  have h1 : i / 2 ^ 64 * 2 ^ 64 = i - i % 2 ^ 64 := by omega
  have h2 : wrap 128 (i / 2 ^ 64 * 2 ^ 64) = i - i % 2 ^ 64 := by
    rw [h1]; unfold wrap; omega
  rw [hh, h2, wrap64_eq]
  split
  · have : i % 2 ^ 64 + (i - i % 2 ^ 64) = i := by omega
    rw [this]; unfold wrap; omega
  · have : i % 2 ^ 64 - 2 ^ 64 + (i - i % 2 ^ 64) = i - 2 ^ 64 := by omega
    rw [this]; unfold wrap; omega

section
variable (toF64 : Int → Nat) (widen : Nat → Nat)

/-- **C50 (values).** What is encoded and decoded with the same declared type is the same value, an
error, or — exactly for the decimals in `Broken` — a value that is 2^64 too small. -/
theorem C50_value (ty : Ty) (v : Val) (h : Holds ty v) :
    ∃ m, encodeVal ty v = .ok m ∧
      (decodeVal toF64 widen ty m = .error .error ∨
       ∃ v', decodeVal toF64 widen ty m = .ok v' ∧ (v' = v ↔ ¬ Broken v)) := by
  cases ty <;> cases v <;> simp only [Holds] at h
  · rename_i i
    refine ⟨_, rfl, Or.inr ⟨.i16 i, ?_, by simp [Broken]⟩⟩
    have h1 := fits64 i (by omega)
    have h2 : fits 16 i = true := by unfold fits; simp only [decide_eq_true_eq]; omega
    simp [decodeVal, MP.asI64, h1, h2]
  · rename_i i
    refine ⟨_, rfl, Or.inr ⟨.i32 i, ?_, by simp [Broken]⟩⟩
    have h1 := fits64 i (by omega)
    have h2 : fits 32 i = true := by unfold fits; simp only [decide_eq_true_eq]; omega
    simp [decodeVal, MP.asI64, h1, h2]
  · rename_i i
    refine ⟨_, rfl, Or.inr ⟨.i64 i, ?_, by simp [Broken]⟩⟩
    have h1 := fits64 i (by omega)
    simp [decodeVal, MP.asI64, h1]
  · exact ⟨_, rfl, Or.inr ⟨_, rfl, by simp [Broken]⟩⟩
  · rename_i p s p' s' i
    obtain ⟨rfl, rfl, hp1, hp2, hs1, hs2, hi1, hi2⟩ := h
    refine ⟨_, rfl, ?_⟩
    by_cases hs : s < 0
    · left
      simp only [decodeVal]
      exact decodeDec_negative p s _ _ (by omega) hs
    · right
      refine ⟨.dec p s (joinHalves (highHalf i) (lowHalf i)), ?_, ?_⟩
      · simp only [decodeVal]
        exact decodeDec_ok p s _ _ (by omega) (by omega) (wrap_fits _) (wrap_fits _)
      · rw [halves i ⟨hi1, hi2⟩]
        simp only [Broken, Int.not_le]
        constructor
        · intro he
          split at he
          · assumption
          · simp only [Val.dec.injEq, true_and] at he
            omega
        · intro he
          rw [if_pos he]
  · exact ⟨_, rfl, Or.inr ⟨_, rfl, by simp [Broken]⟩⟩
  · exact ⟨_, rfl, Or.inr ⟨_, rfl, by simp [Broken]⟩⟩
  · exact ⟨_, rfl, Or.inr ⟨_, rfl, by simp [Broken]⟩⟩
  · rename_i i
    refine ⟨_, rfl, Or.inr ⟨.date i, ?_, by simp [Broken]⟩⟩
    have h1 := fits64 i (by omega)
    have h2 : fits 32 i = true := by unfold fits; simp only [decide_eq_true_eq]; omega
    simp [decodeVal, MP.asI64, h1, h2]
  · rename_i i
    refine ⟨_, rfl, Or.inr ⟨.ts i, ?_, by simp [Broken]⟩⟩
    have h1 := fits64 i (by omega)
    simp [decodeVal, MP.asI64, h1]

/-- **C50 (columns).** A column without NULLs, without broken decimals and without negative scales
comes back as it was sent through a function that returns its argument.  Partial: see the
violations below. -/
theorem C50_partial (ty : Ty) (a : Arr) (h : ∀ s ∈ a, Holds ty s.val ∧ s.valid = true ∧ ¬ Broken s.val)
    (hs : ∀ p s, ty = .decimal p s → 0 ≤ s) :
    ∃ ms, a.mapM (fun s => encodeVal ty s.val) = .ok ms ∧ decodeAll toF64 widen ty ms = .ok a := by
  induction a with
  | nil => exact ⟨[], rfl, rfl⟩
  | cons x a ih =>
    obtain ⟨ms, h1, h2⟩ := ih (fun s hx => h s (by simp [hx]))
    obtain ⟨hx, hv, hb⟩ := h x (by simp)
    obtain ⟨m, hm, hd⟩ := C50_value toF64 widen ty x.val hx
    have hd' : decodeVal toF64 widen ty m = .ok x.val := by
      rcases hd with hd | ⟨v', hd, hiff⟩
      · -- only negative scales are errors
        exfalso
        obtain ⟨val, valid⟩ := x
        simp only at hx hm hb
        cases ty with
        | decimal p s =>
          cases val with
          | dec p' s' i =>
            simp only [Holds] at hx
            simp only [encodeVal, Except.ok.injEq] at hm
            subst hm
            have h0 := hs p s rfl
            obtain ⟨e1, e2, hp1, hp2, hs1, hs2, hi1, hi2⟩ := hx
            simp only [decodeVal] at hd
            have hok := decodeDec_ok p s (highHalf i) (lowHalf i) (by omega) (by omega)
              (wrap_fits _) (wrap_fits _)
            rw [hd] at hok
            simp at hok
          | _ => simp [Holds] at hx
        | smallint =>
          cases val <;> simp only [Holds] at hx
          rename_i i
          simp only [encodeVal, Except.ok.injEq] at hm
          subst hm
          have h2 : fits 16 i = true := by unfold fits; simp only [decide_eq_true_eq]; omega
          simp [decodeVal, asI64_some i (fits64 i (by omega)), h2] at hd
        | int =>
          cases val <;> simp only [Holds] at hx
          rename_i i
          simp only [encodeVal, Except.ok.injEq] at hm
          subst hm
          have h2 : fits 32 i = true := by unfold fits; simp only [decide_eq_true_eq]; omega
          simp [decodeVal, asI64_some i (fits64 i (by omega)), h2] at hd
        | date =>
          cases val <;> simp only [Holds] at hx
          rename_i i
          simp only [encodeVal, Except.ok.injEq] at hm
          subst hm
          have h2 : fits 32 i = true := by unfold fits; simp only [decide_eq_true_eq]; omega
          simp [decodeVal, asI64_some i (fits64 i (by omega)), h2] at hd
        | bigint =>
          cases val <;> simp only [Holds] at hx
          rename_i i
          simp only [encodeVal, Except.ok.injEq] at hm
          subst hm
          simp [decodeVal, asI64_some i (fits64 i (by omega))] at hd
        | timestamp =>
          cases val <;> simp only [Holds] at hx
          rename_i i
          simp only [encodeVal, Except.ok.injEq] at hm
          subst hm
          simp [decodeVal, asI64_some i (fits64 i (by omega))] at hd
        | _ =>
          cases val <;> simp only [Holds] at hx <;> simp only [encodeVal, Except.ok.injEq] at hm <;>
            subst hm <;> simp [decodeVal] at hd
      · rw [hd, hiff.2 hb]
    refine ⟨m :: ms, ?_, ?_⟩
    · rw [List.mapM_cons, hm, h1]; rfl
    · simp only [decodeAll, hd', h2]
      obtain ⟨val, valid⟩ := x
      simp only at hv
      rw [hv]

/-- **C50 (results).** An integer result is accepted exactly if it fits into the declared type, and
then it is that integer. -/
theorem C50_fits (i : Int) :
    (decodeVal toF64 widen .smallint (.int i) = .ok (.i16 i) ↔ -32768 ≤ i ∧ i ≤ 32767) ∧
    (decodeVal toF64 widen .int (.int i) = .ok (.i32 i) ↔ -2147483648 ≤ i ∧ i ≤ 2147483647) ∧
    (decodeVal toF64 widen .bigint (.int i) = .ok (.i64 i) ↔ -(2 ^ 63) ≤ i ∧ i < 2 ^ 63) ∧
    (∀ v, decodeVal toF64 widen .smallint (.int i) = .ok v → v = .i16 i) ∧
    (∀ v, decodeVal toF64 widen .int (.int i) = .ok v → v = .i32 i) ∧
    (∀ v, decodeVal toF64 widen .bigint (.int i) = .ok v → v = .i64 i) := by
  by_cases h64 : -(2 ^ 63) ≤ i ∧ i < 2 ^ 63
  · have hf := fits64 i h64
    have hasI : (MP.int i).asI64 = some i := by simp [MP.asI64, hf]
    simp only [decodeVal, hasI]
    refine ⟨?_, ?_, ⟨fun _ => h64, fun _ => trivial⟩, ?_, ?_, ?_⟩
    · by_cases h : fits 16 i = true
      · simp only [h, if_true, true_iff]
        simp only [fits, decide_eq_true_eq] at h; omega
      · rw [if_neg h]
        simp only [reduceCtorEq, false_iff]
        intro hc
        apply h
        simp only [fits, decide_eq_true_eq]; omega
    · by_cases h : fits 32 i = true
      · simp only [h, if_true, true_iff]
        simp only [fits, decide_eq_true_eq] at h; omega
      · rw [if_neg h]
        simp only [reduceCtorEq, false_iff]
        intro hc
        apply h
        simp only [fits, decide_eq_true_eq]; omega
    · intro v hv; split at hv <;> simp at hv; exact hv.symm
    · intro v hv; split at hv <;> simp at hv; exact hv.symm
    · intro v hv; simp at hv; exact hv.symm
  · have hf : fits 64 i = false := by
      cases h : fits 64 i with
      | false => rfl
      | true => exact absurd (by simpa [fits] using h) h64
    have hasI : (MP.int i).asI64 = none := by simp [MP.asI64, hf]
    simp only [decodeVal, hasI]
    refine ⟨?_, ?_, ?_, ?_, ?_, ?_⟩
    · simp only [reduceCtorEq, false_iff]; omega
    · simp only [reduceCtorEq, false_iff]; omega
    · simp only [reduceCtorEq, false_iff]; exact h64
    · intro v hv; simp at hv
    · intro v hv; simp at hv
    · intro v hv; simp at hv

/-- A case: a decimal of two 64-bit halves. -/
example : Holds (.decimal 38 2) (.dec 38 2 (2 ^ 64 + 7)) ∧ ¬ Broken (.dec 38 2 (2 ^ 64 + 7)) := by
  constructor
  · exact ⟨rfl, rfl, by decide, by decide, by decide, by decide, by decide, by decide⟩
  · simp only [Broken]; omega

/-- **C50 is violated for decimals**: -0.01 sent through a function that returns its argument comes
back as -184467440737095516.17. -/
theorem C50_violated_decimal :
    ∃ ty v m v', Holds ty v ∧ encodeVal ty v = .ok m ∧ decodeVal toF64 widen ty m = .ok v' ∧
      v' = .dec 38 2 (-18446744073709551617) ∧ v = .dec 38 2 (-1) :=
  ⟨.decimal 38 2, .dec 38 2 (-1), _, _, ⟨rfl, rfl, by decide, by decide, by decide, by decide, by decide, by decide⟩, rfl, rfl, rfl, rfl⟩

/-- … and positive ones, from 9223372036854775808 on. -/
theorem C50_violated_decimal_positive :
    ∃ ty v m v', Holds ty v ∧ encodeVal ty v = .ok m ∧ decodeVal toF64 widen ty m = .ok v' ∧
      v' = .dec 38 0 (-9223372036854775808) ∧ v = .dec 38 0 9223372036854775808 :=
  ⟨.decimal 38 0, .dec 38 0 9223372036854775808, _, _, ⟨rfl, rfl, by decide, by decide, by decide, by decide, by decide, by decide⟩, rfl, rfl, rfl, rfl⟩

/-- **C50 is violated for NULL**: it is sent as what is stored in the slot (0 as a rule) and comes
back as that. -/
theorem C50_violated_null :
    ∃ (ty : Ty) (s : Slot) (m : MP) (r : Arr), s.valid = false ∧ encode ty [s] 0 = .ok m ∧
      decodeAll toF64 widen ty [m] = .ok r ∧ r = [⟨s.val, true⟩] :=
  ⟨.bigint, ⟨.i64 0, false⟩, _, _, rfl, rfl, rfl, rfl⟩

/-- **C50 is violated for every decimal in `Broken`** (with a scale that is not negative): it comes
back 2^64 too small. -/
theorem C50_violated_decimal_always (p : Nat) (s i : Int) (h : Holds (.decimal p s) (.dec p s i))
    (hs : 0 ≤ s) (hb : Broken (.dec p s i)) :
    ∃ m, encodeVal (.decimal p s) (.dec p s i) = .ok m ∧
      decodeVal toF64 widen (.decimal p s) m = .ok (.dec p s (i - 2 ^ 64)) := by
  refine ⟨_, rfl, ?_⟩
  simp only [Holds, true_and] at h
  simp only [Broken] at hb
  simp only [decodeVal]
  rw [decodeDec_ok p s (highHalf i) (lowHalf i) (by omega) (by omega) (wrap_fits _) (wrap_fits _),
    halves i ⟨h.2.2.2.2.1, h.2.2.2.2.2⟩, if_neg (by omega)]

/-- All small negative decimals are. -/
theorem C50_negative_broken (p : Nat) (s i : Int) (h : -(2 ^ 63) ≤ i ∧ i < 0) : Broken (.dec p s i) := by
  simp only [Broken]; omega

/-- **C50 is violated for every NULL**: a column comes back with all its NULLs replaced by what is
stored in their slots. -/
theorem C50_violated_null_always (ty : Ty) (a : Arr) (h : ∀ s ∈ a, Holds ty s.val ∧ ¬ Broken s.val)
    (hs : ∀ p s, ty = .decimal p s → 0 ≤ s) :
    ∃ ms, a.mapM (fun s => encodeVal ty s.val) = .ok ms ∧
      decodeAll toF64 widen ty ms = .ok (a.map fun s => ⟨s.val, true⟩) := by
  obtain ⟨ms, h1, h2⟩ := C50_partial toF64 widen ty (a.map fun s => ⟨s.val, true⟩) (by
    intro s hm
    obtain ⟨x, hx, rfl⟩ := List.mem_map.1 hm
    exact ⟨(h x hx).1, rfl, (h x hx).2⟩) hs
  refine ⟨ms, ?_, h2⟩
  rw [← h1, List.mapM_map]
  rfl

/-- A case: the second row is NULL and comes back as 0. -/
example : (∀ s ∈ ([⟨.i64 5, true⟩, ⟨.i64 0, false⟩] : Arr), Holds .bigint s.val ∧ ¬ Broken s.val) ∧
    ([⟨.i64 5, true⟩, ⟨.i64 0, false⟩] : Arr).map (fun s => (⟨s.val, true⟩ : Slot)) ≠ [⟨.i64 5, true⟩, ⟨.i64 0, false⟩] := by
  simp [Holds, Broken]

/-! ### C67: row by row -/

/-- The value of an argument in a row: a scalar is the same in every row. -/
def argAt : Arg → Nat → Option Slot
  | .array a, i => a[i]?
  | .scalar s, _ => some s

/-- What the row's arguments are sent as. -/
def rowOf (i : Nat) : List Ty → List Arg → Option (List MP)
  | ty :: tys, a :: as =>
    match argAt a i with
    | none => none
    | some s =>
      match encodeVal ty s.val, rowOf i tys as with
      | .ok m, some ms => some (m :: ms)
      | _, _ => none
  | _, _ => some []

theorem foldl_max (l : List Nat) : ∀ acc n, acc ≤ n → (∀ x ∈ l, x ≤ n) → l.foldl Nat.max acc ≤ n := by
  induction l with
  | nil => intro acc n h _; exact h
  | cons x l ih =>
    intro acc n h hl
    rw [List.foldl_cons]
    exact ih _ n (Nat.max_le.2 ⟨h, hl x (by simp)⟩) (fun y hy => hl y (by simp [hy]))

theorem le_foldl_max (l : List Nat) : ∀ acc, acc ≤ l.foldl Nat.max acc ∧ ∀ x ∈ l, x ≤ l.foldl Nat.max acc := by
  induction l with
  | nil => intro acc; simp
  | cons x l ih =>
    intro acc
    rw [List.foldl_cons]
    obtain ⟨h1, h2⟩ := ih (Nat.max acc x)
    refine ⟨Nat.le_trans (Nat.le_max_left acc x) h1, ?_⟩
    intro y hy
    rcases List.mem_cons.1 hy with rfl | hy
    · exact Nat.le_trans (Nat.le_max_right acc y) h1
    · exact h2 y hy

/-- In a batch of `n ≥ 1` rows all arrays have length `n`. -/
def Batch (n : Nat) (args : List Arg) : Prop :=
  1 ≤ n ∧ ∀ a ∈ args, ∀ arr, a = .array arr → arr.length = n

/-- The arrays made of the arguments. -/
def spread (n : Nat) : Arg → Arr
  | .array a => a
  | .scalar s => List.replicate n s

theorem toArrays_eq (n : Nat) (args : List Arg) (hb : Batch n args)
    (hex : args = [] ∨ n = 1 ∨ ∃ a, .array a ∈ args) : toArrays args = args.map (spread n) := by
  have hmax : args ≠ [] → (args.map Arg.len).foldl Nat.max 0 = n := by
    intro hne
    apply Nat.le_antisymm
    · refine foldl_max _ _ _ (Nat.zero_le n) ?_
      intro x hx
      obtain ⟨a, ha, rfl⟩ := List.mem_map.1 hx
      cases a with
      | array arr => exact Nat.le_of_eq (hb.2 _ ha arr rfl)
      | scalar s => exact hb.1
    · rcases hex with h | h | ⟨a, ha⟩
      · exact absurd h hne
      · subst h
        cases args with
        | nil => exact absurd rfl hne
        | cons a as =>
          refine Nat.le_trans ?_ ((le_foldl_max _ 0).2 a.len (List.mem_map.2 ⟨a, by simp, rfl⟩))
          cases a with
          | array arr => exact Nat.le_of_eq (hb.2 _ (by simp) arr rfl).symm
          | scalar s => exact Nat.le_refl 1
      · have h1 := hb.2 _ ha a rfl
        have := (le_foldl_max (args.map Arg.len) 0).2 (Arg.len (.array a)) (List.mem_map.2 ⟨_, ha, rfl⟩)
        simp only [Arg.len] at this
        omega
  unfold toArrays
  by_cases hne : args = []
  · subst hne; rfl
  · rw [hmax hne]
    apply List.map_congr_left
    intro a _
    cases a <;> rfl

theorem encodeRow_eq (n i : Nat) (hi : i < n) : ∀ (tys : List Ty) (args : List Arg) (ps : List MP),
    rowOf i tys args = some ps → encodeRow i tys (args.map (spread n)) = .ok ps := by
  intro tys
  induction tys with
  | nil => intro args ps h; simp [rowOf] at h; subst h; simp [encodeRow]
  | cons ty tys ih =>
    intro args ps h
    cases args with
    | nil => simp [rowOf] at h; subst h; simp [encodeRow]
    | cons a as =>
      simp only [rowOf] at h
      cases hs : argAt a i with
      | none => rw [hs] at h; simp at h
      | some s =>
        rw [hs] at h
        simp only at h
        cases he : encodeVal ty s.val with
        | error e => rw [he] at h; simp at h
        | ok m =>
          cases hr : rowOf i tys as with
          | none => rw [he, hr] at h; simp at h
          | some ms =>
            rw [he, hr] at h
            simp only [Option.some.injEq] at h
            subst h
            have hget : (spread n a)[i]? = some s := by
              cases a with
              | array arr => exact hs
              | scalar x =>
                simp only [argAt, Option.some.injEq] at hs
                subst hs
                simp [spread, hi]
            simp only [List.map_cons, encodeRow, encode, hget, he, ih as ms hr]

theorem callRows_eq (f : List MP → Except Err MP) (n : Nat) (tys : List Ty) (args : List Arg)
    (out : Nat → MP) : ∀ rows : List Nat,
    (∀ i ∈ rows, i < n ∧ ∃ ps, rowOf i tys args = some ps ∧ f ps = .ok (out i)) →
    callRows f tys (args.map (spread n)) rows = .ok (rows.map out) := by
  intro rows
  induction rows with
  | nil => intro _; rfl
  | cons i rows ih =>
    intro h
    obtain ⟨hi, ps, h1, h2⟩ := h i (by simp)
    simp only [callRows, encodeRow_eq n i hi tys args ps h1, h2,
      ih (fun j hj => h j (by simp [hj])), List.map_cons]

theorem decodeAll_eq (ret : Ty) (val : Nat → Val) (out : Nat → MP) : ∀ rows : List Nat,
    (∀ i ∈ rows, decodeVal toF64 widen ret (out i) = .ok (val i)) →
    decodeAll toF64 widen ret (rows.map out) = .ok (rows.map fun i => ⟨val i, true⟩) := by
  intro rows
  induction rows with
  | nil => intro _; rfl
  | cons i rows ih =>
    intro h
    simp only [List.map_cons, decodeAll, h i (by simp), ih (fun j hj => h j (by simp [hj]))]

/-- **C67.** On a batch of `n ≥ 1` rows with at least one argument the result has `n` values, and the
`i`-th is the decoded result of the call with the arguments of row `i`, whether they are columns or
scalars.  Partial: see the violations for empty batches and for functions without arguments. -/
theorem C67_partial (f : List MP → Except Err MP) (tys : List Ty) (ret : Ty) (args : List Arg)
    (n : Nat) (hb : Batch n args) (hne : args ≠ []) (hlen : args.length = tys.length)
    (hex : n = 1 ∨ ∃ a, .array a ∈ args) (out : Nat → MP) (val : Nat → Val)
    (hf : ∀ i, i < n → ∃ ps, rowOf i tys args = some ps ∧ f ps = .ok (out i) ∧
      decodeVal toF64 widen ret (out i) = .ok (val i)) :
    apply toF64 widen f tys ret args = .ok ((List.range n).map fun i => ⟨val i, true⟩) := by
  have harr := toArrays_eq n args hb (Or.inr hex)
  unfold apply
  rw [if_neg (by simpa using hlen)]
  simp only [harr]
  cases args with
  | nil => exact absurd rfl hne
  | cons a as =>
    have hl : (spread n a).length = n := by
      cases a with
      | array arr => exact hb.2 _ (by simp) arr rfl
      | scalar s => simp [spread]
    have h1 := callRows_eq f n tys (a :: as) out (List.range n) (fun i hi => by
      have hi' : i < n := List.mem_range.1 hi
      obtain ⟨ps, h1, h2, _⟩ := hf i hi'
      exact ⟨hi', ps, h1, h2⟩)
    have h2 := decodeAll_eq toF64 widen ret val out (List.range n) (fun i hi => by
      obtain ⟨_, _, _, h3⟩ := hf i (List.mem_range.1 hi)
      exact h3)
    rw [List.map_cons] at h1 ⊢
    simp only [hl, h1, h2]

/-- A case: `f(x, 10) = x + 10` on two rows. -/
example : apply toF64 widen (fun ps => match ps with
      | [.int x, .int y] => .ok (.int (x + y))
      | _ => .error .error) [.bigint, .bigint] .bigint
    [.array [⟨.i64 1, true⟩, ⟨.i64 2, true⟩], .scalar ⟨.i64 10, true⟩] =
    .ok [⟨.i64 11, true⟩, ⟨.i64 12, true⟩] := by rfl

/-- **C67 is violated for empty batches** if the first argument is a scalar: the function is called
for a row that is not there, which panics. -/
theorem C67_violated_empty (f : List MP → Except Err MP) :
    apply toF64 widen f [.bigint, .bigint] .bigint [.scalar ⟨.i64 10, true⟩, .array []] =
      .error .panic := rfl

/-- An encoded argument: everything that holds a value of the declared type can be encoded. -/
theorem encode_holds {ty : Ty} {v : Val} (h : Holds ty v) : ∃ m, encodeVal ty v = .ok m := by
  cases ty <;> cases v <;> first | exact ⟨_, rfl⟩ | exact absurd h id

/-- The first row of an empty batch panics. -/
theorem encodeRow_empty (n : Nat) (hn : 1 ≤ n) : ∀ (tys : List Ty) (args : List Arg), args.length = tys.length →
    (∀ (i : Nat) s ty, args[i]? = some (.scalar s) → tys[i]? = some ty → Holds ty s.val) →
    (∀ a, .array a ∈ args → a = []) → (∃ a, .array a ∈ args) →
    encodeRow 0 tys (args.map (spread n)) = .error .panic := by
  intro tys
  induction tys with
  | nil => intro args hl _ _ he; obtain ⟨a, ha⟩ := he; cases args <;> simp at hl ha
  | cons ty tys ih =>
    intro args hl hs he hex
    cases args with
    | nil => simp at hl
    | cons x xs =>
      cases x with
      | array a =>
        have := he a (by simp)
        subst this
        rfl
      | scalar s =>
        obtain ⟨m, hm⟩ := encode_holds (hs 0 s ty rfl rfl)
        have hr := ih xs (by simpa using hl) (fun i s ty h1 h2 => hs (i + 1) s ty (by simpa using h1) (by simpa using h2))
          (fun a ha => he a (by simp [ha])) (by
            obtain ⟨a, ha⟩ := hex
            rcases List.mem_cons.1 ha with h | h
            · cases h
            · exact ⟨a, h⟩)
        have hg : (spread n (.scalar s))[0]? = some s := by
          cases n with
          | zero => omega
          | succ n => rfl
        simp only [List.map_cons, encodeRow, encode, hg, hm, hr]

/-- **C67 for empty batches, exactly**: a call on a batch without rows succeeds (with no results) if its first
argument is a column and panics if it is a constant, whatever the function and the other arguments. -/
theorem C67_empty_exact (f : List MP → Except Err MP) (tys : List Ty) (ret : Ty) (x : Arg) (xs : List Arg)
    (hlen : (x :: xs).length = tys.length)
    (hs : ∀ (i : Nat) s ty, (x :: xs)[i]? = some (.scalar s) → tys[i]? = some ty → Holds ty s.val)
    (he : ∀ a, .array a ∈ x :: xs → a = []) (hex : ∃ a, .array a ∈ x :: xs) :
    apply toF64 widen f tys ret (x :: xs) = match x with
      | .array _ => .ok []
      | .scalar _ => .error .panic := by
  cases x with
  | array a =>
    have := he a (by simp)
    subst this
    simp [apply, hlen, toArrays, callRows, decodeAll]
  | scalar s =>
    obtain ⟨n, hn1, hn2⟩ : ∃ n, 1 ≤ n ∧ toArrays (.scalar s :: xs) = (Arg.scalar s :: xs).map (spread n) := by
      refine ⟨((Arg.scalar s :: xs).map Arg.len).foldl Nat.max 0, ?_, ?_⟩
      · exact (le_foldl_max _ 0).2 (Arg.len (.scalar s)) (by simp)
      · unfold toArrays
        apply List.map_congr_left
        intro a _
        cases a <;> rfl
    have hr := encodeRow_empty n hn1 tys (.scalar s :: xs) hlen hs he hex
    unfold apply
    rw [if_neg (by simpa using hlen)]
    simp only [hn2]
    rw [List.map_cons] at hr ⊢
    simp only
    have hg : List.range (spread n (.scalar s)).length = 0 :: (List.range (n - 1)).map (· + 1) := by
      have : (spread n (.scalar s)).length = (n - 1) + 1 := by simp [spread]; omega
      rw [this, List.range_succ_eq_map]
    rw [hg]
    simp only [callRows, hr]

/-- **C67 is violated for functions without arguments**, which panic. -/
theorem C67_violated_nullary (f : List MP → Except Err MP) (ret : Ty) :
    apply toF64 widen f [] ret [] = .error .panic := rfl

end

/-! ### C68: buffers -/

/-- What the guest was promised: the length in four bytes and the arguments in the buffer it
allocated, and nothing else touched. -/
def Promised (m m' : Mem) (ptr : Nat) (buf : List Byte) : Prop :=
  m'.size = m.size ∧
  (∀ i, i < 4 → m'.at_ (ptr + i) = (le 4 buf.length)[i]?.getD 0) ∧
  (∀ (i : Nat) b, buf[i]? = some b → m'.at_ (ptr + 4 + i) = b) ∧
  (∀ i, (i < ptr ∨ ptr + 4 + buf.length ≤ i) → m'.at_ i = m.at_ i)

theorem le_length (n : Nat) : ∀ v, (le n v).length = n := by
  induction n with
  | zero => intro v; rfl
  | succ n ih => intro v; simp [le, ih]

theorem le_prefix (k : Nat) : ∀ (n v i : Nat), i < k → k ≤ n → (le n v)[i]? = (le k v)[i]? := by
  induction k with
  | zero => intro n v i h; omega
  | succ k ih =>
    intro n v i hi hn
    cases n with
    | zero => omega
    | succ n =>
      simp only [le]
      cases i with
      | zero => rfl
      | succ i => simpa using ih n (v / 256) i (by omega) (by omega)

theorem le_get (n v i : Nat) (h : i < n) : ∃ b, (le n v)[i]? = some b := by
  have := le_length n v
  exact ⟨(le n v)[i], List.getElem?_eq_getElem (by omega)⟩

/-- **C68.** If the buffer is inside the memory and the arguments have at least four bytes, the call
succeeds and does what was promised.  Partial: see the violation for shorter arguments. -/
theorem C68_partial (m : Mem) (ptr : Nat) (buf : List Byte) (hfit : ptr + 4 + buf.length ≤ m.size)
    (hlen : 4 ≤ buf.length) : ∃ m', writeInput m ptr buf = .ok m' ∧ Promised m m' ptr buf := by
  unfold writeInput Mem.write
  rw [if_neg (by rw [le_length]; omega)]
  simp only
  rw [if_neg (by omega)]
  refine ⟨_, rfl, rfl, ?_, ?_, ?_⟩
  · intro i hi
    simp only
    rw [if_neg (by omega), if_pos (by omega)]
    have e : ptr + i - ptr = i := by omega
    rw [e, le_prefix 4 8 buf.length i hi (by omega)]
    obtain ⟨b, hb⟩ := le_get 4 buf.length i hi
    rw [hb]; rfl
  · intro i b hb
    simp only
    rw [if_pos (by omega)]
    have e : ptr + 4 + i - (ptr + 4) = i := by omega
    rw [e, hb]; rfl
  · intro i hi
    simp only
    rcases hi with hi | hi
    · rw [if_neg (by omega), if_neg (by omega)]
    · rw [if_pos (by omega), if_pos (by omega)]
      have e1 : buf[i - (ptr + 4)]? = none := List.getElem?_eq_none (by omega)
      have e2 : (le 8 buf.length)[i - ptr]? = none := List.getElem?_eq_none (by rw [le_length]; omega)
      rw [e1, e2]; rfl

/-- **C68 (whatever the length).** The length and the arguments are always where the guest looks for
them. -/
theorem C68_readable (m m' : Mem) (ptr : Nat) (buf : List Byte)
    (h : writeInput m ptr buf = .ok m') :
    (∀ i, i < 4 → m'.at_ (ptr + i) = (le 4 buf.length)[i]?.getD 0) ∧
    (∀ (i : Nat) b, buf[i]? = some b → m'.at_ (ptr + 4 + i) = b) ∧
    (∀ i, (i < ptr ∨ ptr + 4 + Nat.max 4 buf.length ≤ i) → m'.at_ i = m.at_ i) := by
  unfold writeInput Mem.write at h
  split at h
  · simp at h
  · rename_i m1 hm1
    split at hm1
    · simp at hm1
    · simp only [Except.ok.injEq] at hm1
      subst hm1
      split at h
      · simp at h
      · simp only [Except.ok.injEq] at h
        subst h
        refine ⟨?_, ?_, ?_⟩
        · intro i hi
          simp only
          rw [if_neg (by omega), if_pos (by omega)]
          have e : ptr + i - ptr = i := by omega
          rw [e, le_prefix 4 8 buf.length i hi (by omega)]
          obtain ⟨b, hb⟩ := le_get 4 buf.length i hi
          rw [hb]; rfl
        · intro i b hb
          simp only
          rw [if_pos (by omega)]
          have e : ptr + 4 + i - (ptr + 4) = i := by omega
          rw [e, hb]; rfl
        · intro i hi
          simp only
          have hm : Nat.max 4 buf.length = if 4 ≤ buf.length then buf.length else 4 := by
            simp only [Nat.max_def]
          rcases hi with hi | hi
          · rw [if_neg (by omega), if_neg (by omega)]
          · rw [hm] at hi
            split at hi
            · rw [if_pos (by omega), if_pos (by omega)]
              have e1 : buf[i - (ptr + 4)]? = none := List.getElem?_eq_none (by omega)
              have e2 : (le 8 buf.length)[i - ptr]? = none :=
                List.getElem?_eq_none (by rw [le_length]; omega)
              rw [e1, e2]; rfl
            · rw [if_pos (by omega), if_pos (by omega)]
              have e1 : buf[i - (ptr + 4)]? = none := List.getElem?_eq_none (by omega)
              have e2 : (le 8 buf.length)[i - ptr]? = none :=
                List.getElem?_eq_none (by rw [le_length]; omega)
              rw [e1, e2]; rfl

/-- A case: five bytes at address 16. -/
example : ∃ m', writeInput ⟨64, fun _ => 9⟩ 16 [1, 2, 3, 4, 5] = .ok m' ∧ m'.at_ 16 = 5 ∧
    m'.at_ 20 = 1 ∧ m'.at_ 25 = 9 := ⟨_, rfl, by rfl, by rfl, by rfl⟩

/-- **C68 is violated for arguments of less than four bytes** (one small integer or Boolean): of the
eight bytes of the length two land behind the buffer of six bytes, in memory the guest uses for
something else. -/
theorem C68_violated :
    ∃ (m m' : Mem) (ptr : Nat) (buf : List Byte), writeInput m ptr buf = .ok m' ∧
      ptr + 4 + buf.length ≤ m.size ∧ m'.at_ (ptr + 4 + buf.length) ≠ m.at_ (ptr + 4 + buf.length) :=
  ⟨⟨64, fun _ => 9⟩, _, 16, [145, 7], rfl, by decide, by decide⟩

/-- … or the call fails, if there is no memory behind it. -/
theorem C68_violated_end :
    ∃ (m : Mem) (ptr : Nat) (buf : List Byte), writeInput m ptr buf = .error .error ∧
      ptr + 4 + buf.length ≤ m.size :=
  ⟨⟨22, fun _ => 9⟩, 16, [145, 7], rfl, by decide⟩

theorem le8_small (v : Nat) (hv : v < 4) (j : Nat) (hj : 4 ≤ j) (hj8 : j < 8) : (le 8 v)[j]? = some 0 := by
  have h1 : v / 256 = 0 := by omega
  have : le 8 v = [⟨v % 256, Nat.mod_lt _ (by decide)⟩, 0, 0, 0, 0, 0, 0, 0] := by
    simp only [le, h1, Nat.zero_div]
    rfl
  rw [this]
  obtain rfl | rfl | rfl | rfl : j = 4 ∨ j = 5 ∨ j = 6 ∨ j = 7 := by omega
  all_goals rfl

/-- **C68 for short arguments, exactly**: whenever the encoded arguments have less than four bytes, the bytes
between the end of the buffer and the eighth are set to zero if the memory reaches that far, and the call fails
otherwise; it never does what was promised, unless these bytes were zero already. -/
theorem C68_violated_always (m : Mem) (ptr : Nat) (buf : List Byte) (hlen : buf.length < 4) :
    (ptr + 8 ≤ m.size → ∃ m', writeInput m ptr buf = .ok m' ∧
      ∀ i, ptr + 4 + buf.length ≤ i → i < ptr + 8 → m'.at_ i = 0) ∧
    (m.size < ptr + 8 → writeInput m ptr buf = .error .error) := by
  constructor
  · intro hf
    unfold writeInput Mem.write
    rw [if_neg (by rw [le_length]; omega)]
    simp only
    rw [if_neg (by omega)]
    refine ⟨_, rfl, ?_⟩
    intro i h1 h2
    simp only
    rw [if_pos (by omega), if_pos (by omega)]
    have e1 : buf[i - (ptr + 4)]? = none := List.getElem?_eq_none (by omega)
    rw [e1, le8_small buf.length hlen (i - ptr) (by omega) (by omega)]
    rfl
  · intro hf
    unfold writeInput Mem.write
    rw [if_pos (by rw [le_length]; omega)]

/-- … so the promise is kept exactly if the arguments have four bytes or the memory behind them is zero. -/
theorem C68_exact (m : Mem) (ptr : Nat) (buf : List Byte) (hfit : ptr + 4 + buf.length ≤ m.size) :
    (∃ m', writeInput m ptr buf = .ok m' ∧ Promised m m' ptr buf) ↔
      (4 ≤ buf.length ∨ (ptr + 8 ≤ m.size ∧ ∀ i, ptr + 4 + buf.length ≤ i → i < ptr + 8 → m.at_ i = 0)) := by
  constructor
  · rintro ⟨m', h1, h2⟩
    rcases Nat.lt_or_ge buf.length 4 with hl | hl
    · right
      obtain ⟨k1, k2⟩ := C68_violated_always m ptr buf hl
      rcases Nat.lt_or_ge m.size (ptr + 8) with hs | hs
      · rw [k2 hs] at h1; cases h1
      · obtain ⟨m2, h3, h4⟩ := k1 hs
        rw [h1] at h3
        cases h3
        refine ⟨hs, fun i hi hi' => ?_⟩
        rw [← h2.2.2.2 i (Or.inr hi)]
        exact h4 i hi hi'
    · exact Or.inl hl
  · rintro (h | ⟨hs, hz⟩)
    · exact C68_partial m ptr buf hfit h
    · rcases Nat.lt_or_ge buf.length 4 with hl | hl
      · obtain ⟨m', h1, h2⟩ := (C68_violated_always m ptr buf hl).1 hs
        obtain ⟨r1, r2, r3⟩ := C68_readable m m' ptr buf h1
        refine ⟨m', h1, ?_, r1, r2, ?_⟩
        · unfold writeInput Mem.write at h1
          rw [if_neg (by rw [le_length]; omega)] at h1
          simp only at h1
          rw [if_neg (by omega)] at h1
          cases h1
          rfl
        · intro i hi
          rcases hi with hi | hi
          · exact r3 i (Or.inl hi)
          · rcases Nat.lt_or_ge i (ptr + 8) with h8 | h8
            · rw [h2 i hi h8, hz i hi h8]
            · refine r3 i (Or.inr ?_)
              have hm : Nat.max 4 buf.length = 4 := by simp only [Nat.max_def]; split <;> omega
              rw [hm]; omega
      · exact C68_partial m ptr buf hfit hl

theorem unle_le (n : Nat) : ∀ v, v < 256 ^ n → unle (le n v) = v := by
  induction n with
  | zero => intro v h; simp only [Nat.pow_zero] at h; simp [le, unle]; omega
  | succ n ih =>
    intro v h
    simp only [le, unle]
    rw [ih (v / 256) (by rw [Nat.pow_succ] at h; exact Nat.div_lt_of_lt_mul (by omega))]
    omega

theorem map_range_eq (l : List Byte) (g : Nat → Byte) (h : ∀ (i : Nat) b, l[i]? = some b → g i = b) :
    (List.range l.length).map g = l := by
  apply List.ext_getElem (by simp)
  intro i h1 h2
  simp only [List.getElem_map, List.getElem_range]
  exact h i _ (List.getElem?_eq_getElem h2)

/-- **C68 (results).** A result that the guest laid out the same way — here the function that returns
its argument — is read back byte for byte. -/
theorem C68_result (m m' : Mem) (ptr : Nat) (buf : List Byte) (hsmall : buf.length < 2 ^ 31)
    (h : writeInput m ptr buf = .ok m') : readOutput m' ptr = .ok buf := by
  have hsize : ptr + 4 + buf.length ≤ m'.size ∧ ptr + 8 ≤ m'.size := by
    unfold writeInput Mem.write at h
    split at h
    · simp at h
    · rename_i m1 hm1
      split at hm1
      · simp at hm1
      · rename_i h8
        rw [le_length] at h8
        simp only [Except.ok.injEq] at hm1
        subst hm1
        split at h
        · simp at h
        · rename_i hb
          simp only [Except.ok.injEq] at h
          subst h
          simp only at hb ⊢
          omega
  obtain ⟨h1, h2, _⟩ := C68_readable m m' ptr buf h
  have hr1 : m'.read ptr 4 = .ok (le 4 buf.length) := by
    unfold Mem.read
    rw [if_neg (by omega)]
    have := map_range_eq (le 4 buf.length) (fun i => m'.at_ (ptr + i)) (fun i b hb => by
      have hi : i < 4 := by
        have := (List.getElem?_eq_some_iff.1 hb).1
        rwa [le_length] at this
      rw [h1 i hi, hb]; rfl)
    rw [le_length] at this
    rw [this]
  have hu : unle (le 4 buf.length) = buf.length := unle_le 4 _ (by omega)
  have hr2 : m'.read (ptr + 4) buf.length = .ok buf := by
    unfold Mem.read
    rw [if_neg (by omega)]
    rw [map_range_eq buf (fun i => m'.at_ (ptr + 4 + i)) h2]
  unfold readOutput
  simp only [hr1, hu, hr2]
  rw [if_neg (by omega)]

/-- **C68 (bounds).** Whatever the guest returns, the result is read only if it lies within the memory of the
guest: then it is the bytes behind the length, as many as the length says; otherwise the call fails. -/
theorem C68_bounds (m : Mem) (ptr : Nat) (bs : List Byte) : readOutput m ptr = .ok bs ↔
    unle ((List.range 4).map fun i => m.at_ (ptr + i)) = bs.length ∧ bs.length < 2 ^ 31 ∧
      ptr + 4 + bs.length ≤ m.size ∧ ∀ (i : Nat) b, bs[i]? = some b → m.at_ (ptr + 4 + i) = b := by
  unfold readOutput Mem.read
  constructor
  · intro h
    by_cases h4 : m.size < ptr + 4
    · simp [if_pos h4] at h
    · rw [if_neg h4] at h
      simp only at h
      split at h
      · simp at h
      · rename_i hn
        split at h
        · simp at h
        · rename_i hb
          simp only [Except.ok.injEq] at h
          have hl := congrArg List.length h
          simp only [List.length_map, List.length_range] at hl
          refine ⟨hl, by omega, by omega, ?_⟩
          intro i b hi
          rw [← h] at hi
          simp only [List.getElem?_map, Option.map_eq_some_iff] at hi
          obtain ⟨j, hj, rfl⟩ := hi
          obtain ⟨hj1, hj2⟩ := List.getElem?_eq_some_iff.mp hj
          simp only [List.getElem_range] at hj2
          rw [hj2]
  · rintro ⟨h1, h2, h3, h4⟩
    rw [if_neg (by omega)]
    simp only
    rw [h1, if_neg (by omega), if_neg (by omega), map_range_eq bs _ h4]

example : readOutput ⟨16, fun i => if i = 8 then 3 else if i < 12 then 0 else 7⟩ 8 = .ok [7, 7, 7] ∧
    readOutput ⟨14, fun i => if i = 8 then 3 else if i < 12 then 0 else 7⟩ 8 = .error .error := ⟨by rfl, by rfl⟩

end Seafowl.Wasm
