import Verif.Misc.WasmCall
import Verif.Misc.WasmProps

/-!
# C117: a WASM function that keeps its side of the contract can be called for any number of rows
-/

namespace Seafowl.Wasm.Msg

/-! ### the contract, as the documentation gives it to authors of modules -/

/-- `buf` lies at `ptr` behind its length in four little-endian bytes. -/
def Framed (m : Mem) (ptr : Nat) (buf : List Byte) : Prop :=
  ptr + 4 + buf.length ≤ m.size ∧
  (∀ i, i < 4 → (m.at_ (ptr + i)).val = buf.length / 256 ^ i % 256) ∧
  (∀ (i : Nat) b, buf[i]? = some b → m.at_ (ptr + 4 + i) = b)

/-- A module that keeps the contract and computes `F`.  `live s` are the blocks (pointer and size) handed out by its
allocator, for arguments or for a result, and not given back.  `Inv` is whatever it maintains.

`alloc` must work while nothing is live: how often it was called before must not matter, which is
possible only for someone who gets back all that is handed out.  The host may write where it was given room. -/
structure Keeps {S : Type} (g : Guest S) (Inv : S → Prop) (live : S → List (Nat × Nat))
    (F : List Byte → List Byte) : Prop where
  alloc : ∀ s n, Inv s → live s = [] → n < 2 ^ 31 → ∃ (p : Nat) (s' : S), g.alloc s n = some ((p : Int), s') ∧
    Inv s' ∧ live s' = [(p, n)] ∧ p + n ≤ (g.mem s').size
  poke : ∀ s p n m, Inv s → live s = [(p, n)] → m.size = (g.mem s).size →
    (∀ i, i < p ∨ p + n ≤ i → m.at_ i = (g.mem s).at_ i) →
    Inv (g.poke s m) ∧ live (g.poke s m) = live s ∧ g.mem (g.poke s m) = m
  udf : ∀ s p buf, Inv s → live s = [(p, 4 + buf.length)] → Framed (g.mem s) p buf →
    ∃ (q : Nat) (s' : S), g.udf s (p : Int) = some ((q : Int), s') ∧ Inv s' ∧
      live s' = [(q, 4 + (F buf).length), (p, 4 + buf.length)] ∧ Framed (g.mem s') q (F buf)
  dealloc : ∀ s p n, Inv s → (p, n) ∈ live s → ∃ s', g.dealloc s (p : Int) n = some s' ∧ Inv s' ∧
    live s' = (live s).erase (p, n)

/-! ### proofs -/

theorem unle_four (a b c d : Byte) (n : Nat) (hn : n < 2 ^ 31) (h0 : a.val = n / 256 ^ 0 % 256)
    (h1 : b.val = n / 256 ^ 1 % 256) (h2 : c.val = n / 256 ^ 2 % 256) (h3 : d.val = n / 256 ^ 3 % 256) :
    unle [a, b, c, d] = n := by
  simp only [unle, h0, h1, h2, h3]
  omega

theorem framed_read (m : Mem) (ptr : Nat) (buf : List Byte) (h : Framed m ptr buf) (hb : buf.length < 2 ^ 31) :
    readOutput m ptr = .ok buf := by
  obtain ⟨h1, h2, h3⟩ := h
  refine (C68_bounds m ptr buf).2 ⟨?_, hb, h1, h3⟩
  have e : (List.range 4).map (fun i => m.at_ (ptr + i)) =
      [m.at_ (ptr + 0), m.at_ (ptr + 1), m.at_ (ptr + 2), m.at_ (ptr + 3)] := rfl
  rw [e]
  exact unle_four _ _ _ _ _ hb (h2 0 (by omega)) (h2 1 (by omega)) (h2 2 (by omega)) (h2 3 (by omega))

theorem le_val (n : Nat) : ∀ (v i : Nat), i < n → ((le n v)[i]?.getD 0).val = v / 256 ^ i % 256 := by
  induction n with
  | zero => intro v i h; omega
  | succ n ih =>
    intro v i h
    cases i with
    | zero => simp [le]
    | succ i =>
      simp only [le, List.getElem?_cons_succ]
      rw [ih (v / 256) i (by omega), Nat.div_div_eq_div_mul, Nat.pow_succ, Nat.mul_comm]

theorem promised_framed {m m' : Mem} {ptr : Nat} {buf : List Byte} (h : Promised m m' ptr buf)
    (hfit : ptr + 4 + buf.length ≤ m.size) : Framed m' ptr buf := by
  obtain ⟨h1, h2, h3, _⟩ := h
  refine ⟨by omega, fun i hi => ?_, h3⟩
  rw [h2 i hi]
  exact le_val 4 _ i hi

section
variable {S : Type} {g : Guest S} {Inv : S → Prop} {live : S → List (Nat × Nat)}
  {F : List Byte → List Byte}

/-- Writing the arguments gives the guest what it was promised. -/
theorem writeUdfInput_keeps (K : Keeps g Inv live F) {s : S} {buf : List Byte} (hs : Inv s)
    (hl : live s = []) (h4 : 4 ≤ buf.length) (hb : buf.length + 4 < 2 ^ 31) :
    ∃ (p : Nat) (s' : S), writeUdfInput g s buf = .ok ((p : Int), buf.length + 4, s') ∧ Inv s' ∧
      live s' = [(p, buf.length + 4)] ∧ Framed (g.mem s') p buf := by
  obtain ⟨p, s1, ha, hi1, hl1, hfit⟩ := K.alloc s (buf.length + 4) hs hl hb
  obtain ⟨m', hw, hp⟩ := C68_partial (g.mem s1) p buf (by omega) h4
  obtain ⟨hi2, hl2, hm2⟩ := K.poke s1 p (buf.length + 4) m' hi1 hl1 hp.1 (fun i hi => hp.2.2.2 i (by omega))
  refine ⟨p, g.poke s1 m', ?_, hi2, by rw [hl2, hl1], by rw [hm2]; exact promised_framed hp (by omega)⟩
  have e1 : toI32 (buf.length + 4) = .ok (buf.length + 4) := by simp [toI32, hb]
  have e2 : toUsize (p : Int) = .ok p := by simp [toUsize]
  simp only [writeUdfInput, e1, ha, e2, pokeInput, hw]

/-- **C117 (one call).** A module that keeps the contract and computes `F` is handed the arguments and its result is
handed back; then both buffers are given back with the sizes they have, so that the module is where it was. -/
theorem C117_call_partial (K : Keeps g Inv live F) (c : Codec) {s : S} {args : List MP} {buf : List Byte}
    {v : MP} (hs : Inv s) (hl : live s = []) (hser : c.ser (.arr args) = some buf) (h4 : 4 ≤ buf.length)
    (hb : buf.length + 4 < 2 ^ 31) (hF : (F buf).length + 4 < 2 ^ 31) (hde : c.de (F buf) = some v) :
    ∃ s', call g c s args = .ok (v, s') ∧ Inv s' ∧ live s' = [] := by
  obtain ⟨p, s1, hw, hi1, hl1, hf1⟩ := writeUdfInput_keeps K hs hl h4 hb
  rw [Nat.add_comm] at hl1
  obtain ⟨q, s2, hu, hi2, hl2, hf2⟩ := K.udf s1 p buf hi1 hl1 hf1
  obtain ⟨s3, hd3, hi3, hl3⟩ := K.dealloc s2 p (4 + buf.length) hi2 (by rw [hl2]; simp)
  have hl3' : live s3 = [(q, 4 + (F buf).length)] := by
    rw [hl3, hl2]
    by_cases hc : (q, 4 + (F buf).length) = (p, 4 + buf.length)
    · rw [hc]; simp
    · rw [List.erase_cons_tail (by simpa using hc)]; simp
  obtain ⟨s4, hd4, hi4, hl4⟩ := K.dealloc s3 q (4 + (F buf).length) hi3 (by rw [hl3']; simp)
  refine ⟨s4, ?_, hi4, by rw [hl4, hl3']; simp⟩
  have e2 : toUsize (q : Int) = .ok q := by simp [toUsize]
  have e3 : toI32 ((F buf).length + 4) = .ok ((F buf).length + 4) := by simp [toI32, hF]
  have hr : readUdfOutput g c s2 (q : Int) = .ok (v, (F buf).length + 4) := by
    simp only [readUdfOutput, e2, framed_read _ _ _ hf2 (by omega), hde, e3]
  rw [Nat.add_comm] at hd3 hd4
  simp only [call, hser, hw, hu, hr, deallocBoth, hd3, hd4]

/-- The function on values that the module computes: bytes of the arguments to bytes of the result. -/
def asValues (c : Codec) (F : List Byte → List Byte) (args : List MP) : Except Err MP :=
  match c.ser (.arr args) with
  | none => .error .error
  | some buf =>
    match c.de (F buf) with
    | none => .error .error
    | some v => .ok v

/-- The arguments and the result of a call fit: their bytes are at least four, and less than 2 GiB. -/
def FitsCall (c : Codec) (F : List Byte → List Byte) (args : List MP) : Prop :=
  ∀ buf, c.ser (.arr args) = some buf → 4 ≤ buf.length ∧ buf.length + 4 < 2 ^ 31 ∧ (F buf).length + 4 < 2 ^ 31

theorem call_asValues (K : Keeps g Inv live F) (c : Codec) {s : S} {args : List MP} (hs : Inv s)
    (hl : live s = []) (hfit : FitsCall c F args) :
    match asValues c F args with
    | .ok v => ∃ s', call g c s args = .ok (v, s') ∧ Inv s' ∧ live s' = []
    | .error e => call g c s args = .error e := by
  unfold asValues
  cases hser : c.ser (.arr args) with
  | none => simp [call, hser]
  | some buf =>
    obtain ⟨h4, hb, hF⟩ := hfit buf hser
    simp only
    cases hde : c.de (F buf) with
    | some v => exact C117_call_partial K c hs hl hser h4 hb hF hde
    | none =>
      obtain ⟨p, s1, hw, hi1, hl1, hf1⟩ := writeUdfInput_keeps K hs hl h4 hb
      rw [Nat.add_comm] at hl1
      obtain ⟨q, s2, hu, hi2, hl2, hf2⟩ := K.udf s1 p buf hi1 hl1 hf1
      have e2 : toUsize (q : Int) = .ok q := by simp [toUsize]
      have hr : readUdfOutput g c s2 (q : Int) = .error .error := by
        simp only [readUdfOutput, e2, framed_read _ _ _ hf2 (by omega), hde]
      simp only [call, hser, hw, hu, hr]

theorem callRowsG_eq (K : Keeps g Inv live F) (c : Codec) (tys : List Ty) (args : List Arr) :
    ∀ (rows : List Nat) (s : S), Inv s → live s = [] →
      (∀ row ∈ rows, ∀ ps, encodeRow row tys args = .ok ps → FitsCall c F ps) →
      match callRows (asValues c F) tys args rows with
      | .ok rs => ∃ s', callRowsG g c tys args s rows = .ok (rs, s') ∧ Inv s' ∧ live s' = []
      | .error e => callRowsG g c tys args s rows = .error e
  | [], s, hs, hl, _ => by simp [callRows, callRowsG, hs, hl]
  | row :: rows, s, hs, hl, hfit => by
    simp only [callRows, callRowsG]
    cases he : encodeRow row tys args with
    | error e => simp
    | ok ps =>
      have hc := call_asValues K c hs hl (hfit row (by simp) ps he)
      simp only
      cases hv : asValues c F ps with
      | error e => rw [hv] at hc; simp only at hc ⊢; rw [hc]
      | ok v =>
        rw [hv] at hc
        obtain ⟨s1, hc1, hi1, hl1⟩ := hc
        have ih := callRowsG_eq K c tys args rows s1 hi1 hl1 (fun r hr => hfit r (by simp [hr]))
        simp only [hc1]
        cases hr : callRows (asValues c F) tys args rows with
        | error e => rw [hr] at ih; simp only at ih ⊢; rw [ih]
        | ok rs =>
          rw [hr] at ih
          obtain ⟨s2, h2, hi2, hl2⟩ := ih
          exact ⟨s2, by simp only [h2], hi2, hl2⟩

/-- **C117.** For a module that keeps the contract, a batch of any number of rows gives what the function on values
gives row by row (C67): nothing that happened in earlier rows matters, and memory for one row is enough for all.
Missing: rows whose arguments have less than four bytes, and buffers of 2 GiB, see the violations. -/
theorem C117_rows_partial (K : Keeps g Inv live F) (c : Codec) (toF64 : Int → Nat) (widen : Nat → Nat)
    (tys : List Ty) (ret : Ty) (args : List Arg) (s : S) (hs : Inv s) (hl : live s = [])
    (hfit : ∀ row ps, encodeRow row tys (toArrays args) = .ok ps → FitsCall c F ps) :
    applyGuest toF64 widen g c s tys ret args = apply toF64 widen (asValues c F) tys ret args := by
  unfold applyGuest apply
  by_cases hn : args.length ≠ tys.length
  · rw [if_pos hn, if_pos hn]
  · rw [if_neg hn, if_neg hn]
    simp only
    cases ha : toArrays args with
    | nil => rfl
    | cons a as =>
      simp only
      have h := callRowsG_eq K c tys (a :: as) (List.range a.length) s hs hl
        (fun row _ ps hp => hfit row ps (by rw [ha]; exact hp))
      cases hr : callRows (asValues c F) tys (a :: as) (List.range a.length) with
      | error e => rw [hr] at h; simp only at h ⊢; rw [h]
      | ok rs =>
        rw [hr] at h
        obtain ⟨s', h1, _, _⟩ := h
        simp only [h1]

/-- **C117 (failures).** Whatever the module does, a value is returned only if every step was taken: the arguments
were written to a buffer the module allocated for them, the function returned without a trap, its result lies within
the memory and is MessagePack for the value, and both buffers were given back with the sizes they have. -/
theorem C117_given_back (c : Codec) {s s' : S} {args : List MP} {v : MP} (h : call g c s args = .ok (v, s')) :
    ∃ (buf out : List Byte) (p q : Nat) (s1 s3 s4 : S) (m : Mem), c.ser (.arr args) = some buf ∧
      g.alloc s (4 + buf.length) = some ((p : Int), s1) ∧
      writeInput (g.mem s1) p buf = .ok m ∧
      g.udf (g.poke s1 m) (p : Int) = some ((q : Int), s3) ∧
      unle ((List.range 4).map fun i => (g.mem s3).at_ (q + i)) = out.length ∧
      q + 4 + out.length ≤ (g.mem s3).size ∧
      (∀ (i : Nat) b, out[i]? = some b → (g.mem s3).at_ (q + 4 + i) = b) ∧
      c.de out = some v ∧
      g.dealloc s3 (p : Int) (4 + buf.length) = some s4 ∧
      g.dealloc s4 (q : Int) (4 + out.length) = some s' := by
  unfold call at h
  split at h
  · cases h
  · rename_i buf hser
    split at h
    · cases h
    · rename_i p n s2 hw
      split at h
      · cases h
      · rename_i q s3 hu
        split at h
        · cases h
        · rename_i v' k hr
          split at h
          · cases h
          · rename_i s5 hd
            simp only [Except.ok.injEq, Prod.mk.injEq] at h
            obtain ⟨rfl, rfl⟩ := h
            unfold writeUdfInput toI32 at hw
            split at hw
            · cases hw
            · rename_i size hsz
              split at hsz
              · simp only [Except.ok.injEq] at hsz
                subst hsz
                split at hw
                · cases hw
                · rename_i p' s1 ha
                  unfold toUsize at hw
                  split at hw
                  · cases hw
                  · rename_i ptr hp
                    split at hp
                    · rename_i hp0
                      simp only [Except.ok.injEq] at hp
                      subst hp
                      unfold pokeInput at hw
                      split at hw
                      · cases hw
                      · rename_i s2' hpk
                        split at hpk
                        · cases hpk
                        · rename_i m hwi
                          simp only [Except.ok.injEq] at hpk
                          subst hpk
                          simp only [Except.ok.injEq, Prod.mk.injEq] at hw
                          obtain ⟨rfl, rfl, rfl⟩ := hw
                          unfold readUdfOutput toUsize at hr
                          split at hr
                          · cases hr
                          · rename_i qn hq
                            split at hq
                            · rename_i hq0
                              simp only [Except.ok.injEq] at hq
                              subst hq
                              split at hr
                              · cases hr
                              · rename_i out hro
                                split at hr
                                · cases hr
                                · rename_i w hde
                                  unfold toI32 at hr
                                  split at hr
                                  · cases hr
                                  · rename_i k' hk
                                    split at hk
                                    · simp only [Except.ok.injEq] at hk
                                      subst hk
                                      simp only [Except.ok.injEq, Prod.mk.injEq] at hr
                                      obtain ⟨rfl, rfl⟩ := hr
                                      unfold deallocBoth at hd
                                      split at hd
                                      · cases hd
                                      · rename_i s4 hd1
                                        split at hd
                                        · cases hd
                                        · rename_i s6 hd2
                                          simp only [Except.ok.injEq] at hd
                                          subst hd
                                          have ep : ((p'.toNat : Nat) : Int) = p' := Int.toNat_of_nonneg hp0
                                          have eq : ((q.toNat : Nat) : Int) = q := Int.toNat_of_nonneg hq0
                                          obtain ⟨b1, _, b3, b4⟩ := (C68_bounds _ _ _).1 hro
                                          refine ⟨buf, out, p'.toNat, q.toNat, s1, s3, s4, m, hser, ?_, hwi, ?_, b1, b3,
                                            b4, hde, ?_, ?_⟩
                                          · rw [Nat.add_comm, ep]; exact ha
                                          · rw [ep, eq]; exact hu
                                          · rw [Nat.add_comm, ep]; exact hd1
                                          · rw [Nat.add_comm, eq]; exact hd2
                                    · cases hk
                            · cases hq
                    · cases hp
              · cases hsz

end

/-! ### a module that keeps the contract -/

/-- The state of the module: its memory and the blocks in use. -/
structure Nine where
  mem : Mem
  live : List (Nat × Nat)

/-- The memory with its size at least `n`. -/
def grow (m : Mem) (n : Nat) : Mem := { m with size := Nat.max m.size n }

/-- Returns the byte it keeps at address 22.  Blocks of up to six bytes are at 16, longer ones at 64, results at 32. -/
def nine : Guest Nine where
  mem s := s.mem
  poke s m := { s with mem := m }
  alloc s n :=
    let p := if n ≤ 6 then 16 else 64
    some ((p : Nat), ⟨grow s.mem (p + n), (p, n) :: s.live⟩)
  dealloc s p n := if (p.toNat, n) ∈ s.live then some ⟨s.mem, s.live.erase (p.toNat, n)⟩ else none
  udf s _ :=
    some (32, ⟨{ s.mem with at_ := fun i =>
        if i = 32 then 1 else if i = 33 ∨ i = 34 ∨ i = 35 then 0 else if i = 36 then s.mem.at_ 22 else s.mem.at_ i },
      (32, 5) :: s.live⟩)

/-- The nine is where it should be, and no block it handed out covers it. -/
def NineInv (s : Nine) : Prop :=
  s.mem.at_ 22 = 9 ∧ 64 ≤ s.mem.size ∧ ∀ b ∈ s.live, b.1 + b.2 ≤ 22 ∨ 22 < b.1

def nineStart : Nine := ⟨⟨64, fun i => if i = 22 then 9 else 0⟩, []⟩

theorem nine_keeps : Keeps nine NineInv Nine.live (fun _ => [9]) where
  alloc s n hi hl hn := by
    refine ⟨if n ≤ 6 then 16 else 64, ⟨grow s.mem ((if n ≤ 6 then 16 else 64) + n),
      ((if n ≤ 6 then 16 else 64), n) :: s.live⟩, rfl, ⟨hi.1, ?_, ?_⟩, by rw [hl], ?_⟩
    · exact Nat.le_trans hi.2.1 (Nat.le_max_left _ _)
    · intro b hb
      rcases List.mem_cons.1 hb with h | h
      · subst h
        by_cases h6 : n ≤ 6
        · rw [if_pos h6]; left; show 16 + n ≤ 22; omega
        · rw [if_neg h6]; right; show 22 < 64; omega
      · exact hi.2.2 b h
    · exact Nat.le_max_right _ _
  poke s p n m hi hl hm ho := by
    refine ⟨⟨?_, ?_, hi.2.2⟩, rfl, rfl⟩
    · have hb := hi.2.2 (p, n) (by rw [hl]; simp)
      show m.at_ 22 = 9
      rcases hb with h | h
      · rw [ho 22 (.inr h)]; exact hi.1
      · rw [ho 22 (.inl h)]; exact hi.1
    · show 64 ≤ m.size
      rw [hm]; exact hi.2.1
  udf s p buf hi hl hf := by
    refine ⟨32, _, rfl, ⟨?_, hi.2.1, ?_⟩, by rw [hl]; rfl, ?_, ?_, ?_⟩
    · exact hi.1
    · intro b hb
      rcases List.mem_cons.1 hb with h | h
      · subst h; right; show 22 < 32; omega
      · exact hi.2.2 b h
    · have := hi.2.1
      show 32 + 4 + 1 ≤ s.mem.size
      omega
    · intro i h
      match i, h with
      | 0, _ => rfl
      | 1, _ => rfl
      | 2, _ => rfl
      | 3, _ => rfl
    · intro i b h
      match i, h with
      | 0, h =>
        simp only [List.getElem?_cons_zero, Option.some.injEq] at h
        subst h
        exact hi.1
  dealloc s p n hi hm := by
    refine ⟨⟨s.mem, s.live.erase (p, n)⟩, ?_, ⟨hi.1, hi.2.1, fun b hb => hi.2.2 b (List.mem_of_mem_erase hb)⟩, rfl⟩
    show (if ((p : Int).toNat, n) ∈ s.live then some (⟨s.mem, s.live.erase ((p : Int).toNat, n)⟩ : Nine) else none) = _
    rw [Int.toNat_natCast, if_pos hm]

theorem nineStart_inv : NineInv nineStart ∧ nineStart.live = [] := ⟨⟨rfl, by decide, by simp [nineStart]⟩, rfl⟩

/-- A piece of MessagePack: arrays of small integers, and small integers. -/
def tinyCodec : Codec where
  ser
    | .arr xs => some (⟨(144 + xs.length) % 256, by omega⟩ :: xs.map fun x =>
        match x with | .int i => ⟨i.toNat % 256, by omega⟩ | _ => 0)
    | _ => none
  de
    | [b] => some (.int b.val)
    | _ => none

/-- A case: three arguments, and a batch of three rows. -/
example : ∃ s', call nine tinyCodec nineStart [.int 1, .int 2, .int 3] = .ok (.int 9, s') ∧ NineInv s' ∧ s'.live = [] :=
  C117_call_partial nine_keeps tinyCodec nineStart_inv.1 nineStart_inv.2 (buf := [147, 1, 2, 3]) rfl (by decide)
    (by decide) (by decide) rfl

theorem encodeRow_length (row : Nat) : ∀ (tys : List Ty) (as : List Arr) (ps : List MP), tys.length = as.length →
    encodeRow row tys as = .ok ps → ps.length = tys.length
  | [], [], ps, _, h => by simp only [encodeRow, Except.ok.injEq] at h; subst h; rfl
  | ty :: tys, a :: as, ps, hl, h => by
    simp only [encodeRow] at h
    split at h
    · cases h
    · split at h
      · cases h
      · rename_i ms hms
        simp only [Except.ok.injEq] at h
        subst h
        simp [encodeRow_length row tys as ms (by simpa using hl) hms]

example (toF64 : Int → Nat) (widen : Nat → Nat) :
    applyGuest toF64 widen nine tinyCodec nineStart [.bigint, .bigint, .bigint] .bigint
      [.array [⟨.i64 1, true⟩, ⟨.i64 2, true⟩, ⟨.i64 3, true⟩], .scalar ⟨.i64 4, true⟩, .scalar ⟨.i64 5, true⟩] =
    .ok [⟨.i64 9, true⟩, ⟨.i64 9, true⟩, ⟨.i64 9, true⟩] := by
  rw [C117_rows_partial nine_keeps tinyCodec toF64 widen _ _ _ nineStart nineStart_inv.1 nineStart_inv.2]
  · have h9 : asValues tinyCodec (fun _ => [9]) = fun args => .ok (.int 9) := rfl
    rw [h9]
    rfl
  · intro row ps h buf hb
    have hl := encodeRow_length row _ _ ps rfl h
    simp only [tinyCodec, Option.some.injEq] at hb
    subst hb
    simp only [List.length_cons, List.length_map, hl, List.length_nil]
    exact ⟨by omega, by omega, by omega⟩

/-- **C117 is violated for short arguments**: the module keeps the contract, its function is constant, and yet a call
with one small integer returns something else, because the host writes eight bytes of length into a buffer of six. -/
theorem C117_violated : ∃ (S : Type) (g : Guest S) (Inv : S → Prop) (live : S → List (Nat × Nat)) (s s' : S),
    Keeps g Inv live (fun _ => [9]) ∧ Inv s ∧ live s = [] ∧
      call g tinyCodec s [.int 7] = .ok (.int 0, s') ∧ ¬ Inv s' :=
  ⟨Nine, nine, NineInv, Nine.live, nineStart, _, nine_keeps, nineStart_inv.1, nineStart_inv.2, rfl, fun h =>
    absurd h.1 (by decide)⟩

/-- **C117 is violated for pointers from 2 GiB on**, which a WASM memory of four GiB has: as an `i32` they are
negative, and the statement panics instead of failing. -/
theorem C117_violated_pointer : ∀ (S : Type) (g : Guest S) (c : Codec) (s s' : S) (args : List MP) (buf : List Byte)
    (p : Int), c.ser (.arr args) = some buf → buf.length + 4 < 2 ^ 31 → g.alloc s (buf.length + 4) = some (p, s') →
      p < 0 → call g c s args = .error .panic := by
  intro S g c s s' args buf p h1 h2 h3 h4
  have e1 : toI32 (buf.length + 4) = .ok (buf.length + 4) := by simp [toI32, h2]
  have e2 : toUsize p = .error .panic := by simp only [toUsize]; rw [if_neg (by omega)]
  simp only [call, h1, writeUdfInput, e1, h3, e2]

end Seafowl.Wasm.Msg
