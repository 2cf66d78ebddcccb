/-
WASM user-defined functions with MessagePack arguments.

Modelled: /repo/src/wasm_udf/wasm.rs 126-213 (buffers in the guest's memory), 241-538 (encoding,
decoding), 542-620 (applying the function to columns).

Integers and decimals are `Int`s in the range of their type, floating point numbers are their bits.
The bytes of a MessagePack value are the library's; here they are a parameter.  The type names that
are converted alike (`I32` and `INT`, …) are one type.  The legacy `wasm` language is in
`Verif.Misc.WasmLegacy`.
-/
namespace Seafowl.Wasm

inductive Err where
  | error | panic
  deriving DecidableEq, Repr

/-- `CreateFunctionDataType` (data_types.rs 43-66). -/
inductive Ty where
  | smallint | int | bigint | text | decimal (p : Nat) (s : Int) | real | double | boolean | date
  | timestamp
  deriving DecidableEq, Repr

/-- A value of a column. -/
inductive Val where
  | i16 (v : Int) | i32 (v : Int) | i64 (v : Int)
  | str (s : String)
  | dec (p : Nat) (s : Int) (v : Int)
  | f32 (bits : Nat) | f64 (bits : Nat)
  | bool (b : Bool)
  | date (v : Int) | ts (v : Int)
  deriving DecidableEq, Repr

/-- A slot of an Arrow array: what is stored, and whether it is not NULL. -/
structure Slot where
  val : Val
  valid : Bool
  deriving DecidableEq, Repr

/-- An Arrow array (all values of one type). -/
abbrev Arr := List Slot

/-- MessagePack values (`rmpv::Value`). -/
inductive MP where
  | nil
  | int (i : Int)
  | f32 (bits : Nat) | f64 (bits : Nat)
  | str (s : String)
  | bool (b : Bool)
  | arr (xs : List MP)

/-- `as` conversion to a signed integer of `n` bits. -/
def wrap (n : Nat) (i : Int) : Int := (i + 2 ^ (n - 1)) % 2 ^ n - 2 ^ (n - 1)

/-- Does `i` fit into a signed integer of `n` bits (`try_from`)? -/
def fits (n : Nat) (i : Int) : Bool := decide (-(2 ^ (n - 1)) ≤ i ∧ i < 2 ^ (n - 1))

/-- `rmpv::Value::as_i64` and `as_u64`. -/
def MP.asI64 : MP → Option Int
  | .int i => if fits 64 i then some i else none
  | _ => none

def MP.asU64 : MP → Option Int
  | .int i => if 0 ≤ i ∧ i < 2 ^ 64 then some i else none
  | _ => none

/-- The two halves of a decimal (330-331), and putting them together (514). -/
def highHalf (i : Int) : Int := wrap 64 (i / 2 ^ 64)
def lowHalf (i : Int) : Int := wrap 64 i
def joinHalves (h l : Int) : Int := wrap 128 (l + wrap 128 (h * 2 ^ 64))

/-- What the slot of an array of the declared type is sent as; whether it is NULL is not looked at
(241-343).  The array's type is checked by a downcast. -/
def encodeVal (ty : Ty) (v : Val) : Except Err MP :=
  match ty, v with
  | .smallint, .i16 i => .ok (.int i)
  | .int, .i32 i => .ok (.int i)
  | .bigint, .i64 i => .ok (.int i)
  | .real, .f32 b => .ok (.f32 b)
  | .double, .f64 b => .ok (.f64 b)
  | .text, .str s => .ok (.str s)
  | .boolean, .bool b => .ok (.bool b)
  | .decimal p s, .dec _ _ i =>
    .ok (.arr [.int p, .int s, .int (highHalf i), .int (lowHalf i)])
  | .date, .date i => .ok (.int i)
  | .timestamp, .ts i => .ok (.int i)
  | _, _ => .error .error

/-- `messagepack_encode_input_value`: `arr.value(row_ix)` panics out of bounds. -/
def encode (ty : Ty) (a : Arr) (row : Nat) : Except Err MP :=
  match a[row]? with
  | none => .error .panic
  | some s => encodeVal ty s.val

/-- A decimal result (479-518): precision and scale are read as `u64`, converted to `u8` and `i8`,
and compared with the declared type. -/
def decodeDec (p : Nat) (s : Int) (mp ms mh ml : MP) : Except Err Val :=
  match mp.asU64 with
  | none => .error .error
  | some p' =>
    if p' ≠ p ∨ 255 < p' then .error .error
    else
      match ms.asU64 with
      | none => .error .error
      | some s' =>
        if s' ≠ s ∨ 127 < s' then .error .error
        else
          match mh.asI64, ml.asI64 with
          | some h, some l => .ok (.dec p s (joinHalves h l))
          | _, _ => .error .error

/-- One result (`messagepack_decode_results`, 361-524).  `as_f64` also accepts integers and `f32`s,
which `toF64` and `widen` (library) convert. -/
def decodeVal (toF64 : Int → Nat) (widen : Nat → Nat) (ty : Ty) (m : MP) : Except Err Val :=
  match ty with
  | .smallint =>
    match m.asI64 with
    | none => .error .error
    | some i => if fits 16 i then .ok (.i16 i) else .error .error
  | .int =>
    match m.asI64 with
    | none => .error .error
    | some i => if fits 32 i then .ok (.i32 i) else .error .error
  | .bigint =>
    match m.asI64 with
    | none => .error .error
    | some i => .ok (.i64 i)
  | .text =>
    match m with
    | .str s => .ok (.str s)
    | _ => .error .error
  | .date =>
    match m.asI64 with
    | none => .error .error
    | some i => if fits 32 i then .ok (.date i) else .error .error
  | .timestamp =>
    match m.asI64 with
    | none => .error .error
    | some i => .ok (.ts i)
  | .boolean =>
    match m with
    | .bool b => .ok (.bool b)
    | _ => .error .error
  | .double =>
    match m with
    | .f64 b => .ok (.f64 b)
    | .f32 b => .ok (.f64 (widen b))
    | .int i => .ok (.f64 (toF64 i))
    | _ => .error .error
  | .real =>
    match m with
    | .f32 b => .ok (.f32 b)
    | _ => .error .error
  | .decimal p s =>
    match m with
    | .arr [mp, ms, mh, ml] => decodeDec p s mp ms mh ml
    | _ => .error .error

/-- All results become non-NULL slots; the first error is the error of the whole. -/
def decodeAll (toF64 : Int → Nat) (widen : Nat → Nat) (ty : Ty) : List MP → Except Err Arr
  | [] => .ok []
  | m :: ms =>
    match decodeVal toF64 widen ty m with
    | .error e => .error e
    | .ok v =>
      match decodeAll toF64 widen ty ms with
      | .error e => .error e
      | .ok vs => .ok (⟨v, true⟩ :: vs)

/-! ### Applying the function -/

/-- `ColumnarValue`. -/
inductive Arg where
  | array (a : Arr)
  | scalar (s : Slot)

def Arg.len : Arg → Nat
  | .array a => a.length
  | .scalar _ => 1

/-- `columnar_values_to_array` (542-556): arrays stay as they are. -/
def toArrays (args : List Arg) : List Arr :=
  let n := (args.map Arg.len).foldl Nat.max 0
  args.map fun a => match a with
    | .array a => a
    | .scalar s => List.replicate n s

/-- The arguments of one row (599-608). -/
def encodeRow (row : Nat) : List Ty → List Arr → Except Err (List MP)
  | ty :: tys, a :: as =>
    match encode ty a row with
    | .error e => .error e
    | .ok m =>
      match encodeRow row tys as with
      | .error e => .error e
      | .ok ms => .ok (m :: ms)
  | _, _ => .ok []

/-- The loop over the rows (596-615): `f` is the call of the guest, here a function of the
arguments. -/
def callRows (f : List MP → Except Err MP) (tys : List Ty) (args : List Arr) :
    List Nat → Except Err (List MP)
  | [] => .ok []
  | row :: rows =>
    match encodeRow row tys args with
    | .error e => .error e
    | .ok ps =>
      match f ps with
      | .error e => .error e
      | .ok r =>
        match callRows f tys args rows with
        | .error e => .error e
        | .ok rs => .ok (r :: rs)

/-- The closure of `make_scalar_function_wasm_messagepack` (575-620). -/
def apply (toF64 : Int → Nat) (widen : Nat → Nat) (f : List MP → Except Err MP) (tys : List Ty)
    (ret : Ty) (args : List Arg) : Except Err Arr :=
  if args.length ≠ tys.length then .error .error
  else
    let arrs := toArrays args
    match arrs with
    | [] => .error .panic
    | a :: _ =>
      match callRows f tys arrs (List.range a.length) with
      | .error e => .error e
      | .ok rs => decodeAll toF64 widen ret rs

/-! ### Buffers in the guest's memory -/

abbrev Byte := Fin 256

structure Mem where
  size : Nat
  at_ : Nat → Byte

/-- `Memory::write`. -/
def Mem.write (m : Mem) (ptr : Nat) (bs : List Byte) : Except Err Mem :=
  if m.size < ptr + bs.length then .error .error
  else .ok { m with at_ := fun i => if ptr ≤ i then (bs[i - ptr]?).getD (m.at_ i) else m.at_ i }

/-- `Memory::read`. -/
def Mem.read (m : Mem) (ptr n : Nat) : Except Err (List Byte) :=
  if m.size < ptr + n then .error .error
  else .ok ((List.range n).map fun i => m.at_ (ptr + i))

/-- `n` little-endian bytes (`to_ne_bytes` on the usual hosts). -/
def le : Nat → Nat → List Byte
  | 0, _ => []
  | n + 1, v => ⟨v % 256, Nat.mod_lt _ (by decide)⟩ :: le n (v / 256)

def unle : List Byte → Nat
  | [] => 0
  | b :: bs => b.val + 256 * unle bs

/-- `write_udf_input` (168-213), after serialising and allocating `buf.len() + 4` bytes at `ptr`:
the length is written as a `usize`, which has eight bytes. -/
def writeInput (m : Mem) (ptr : Nat) (buf : List Byte) : Except Err Mem :=
  match m.write ptr (le 8 buf.length) with
  | .error e => .error e
  | .ok m' => m'.write (ptr + 4) buf

/-- `read_udf_output` (126-165), without decoding: a size that is negative as an `i32` is an
error. -/
def readOutput (m : Mem) (ptr : Nat) : Except Err (List Byte) :=
  match m.read ptr 4 with
  | .error e => .error e
  | .ok bs =>
    if 2 ^ 31 ≤ unle bs then .error .error else m.read (ptr + 4) (unle bs)

end Seafowl.Wasm
