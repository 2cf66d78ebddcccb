import Verif.Misc.Wasm

/-!
# A call of a WASM function with its buffers

Modelled: /repo/src/wasm_udf/wasm.rs 84-93 (`WasmMessagePackUDFInstance`), 130-166 (`read_udf_output`), 168-213
(`write_udf_input`), 215-240 (`call`), 575-620 (the closure, with one instance for the rows of a batch).

`Misc/Wasm.lean` takes the call of the guest as a function of the arguments.  Here the guest is a program with a
memory and a state of its own; nothing is assumed about it.  A trap of a guest function is an error.  Pointers
and sizes are `i32`; one that does not fit, or is negative, makes the host panic (`try_into().unwrap()`).
MessagePack (`rmp_serde`) is a parameter: `ser` gives the bytes of a value, `de` the value of bytes.
-/

namespace Seafowl.Wasm.Msg

/-- An instance of a module (84-93): the exported memory, which the host may change, and the three functions;
`none` is a trap. -/
structure Guest (S : Type) where
  mem : S → Mem
  poke : S → Mem → S
  alloc : S → Nat → Option (Int × S)
  dealloc : S → Int → Nat → Option S
  udf : S → Int → Option (Int × S)

/-- The library that turns values into bytes and back. -/
structure Codec where
  ser : MP → Option (List Byte)
  de : List Byte → Option MP

/-- `usize` to `i32` with `unwrap` (183, 163, 212). -/
def toI32 (n : Nat) : Except Err Nat := if n < 2 ^ 31 then .ok n else .error .panic

/-- `i32` to `usize` with `unwrap` (131, 189). -/
def toUsize (p : Int) : Except Err Nat := if 0 ≤ p then .ok p.toNat else .error .panic

/-- A memory write of `write_udf_input` by an instance. -/
def pokeInput {S : Type} (g : Guest S) (s : S) (ptr : Nat) (buf : List Byte) : Except Err S :=
  match writeInput (g.mem s) ptr buf with
  | .error e => .error e
  | .ok m => .ok (g.poke s m)

/-- `write_udf_input` (168-213) for serialised arguments: the pointer, the size for `dealloc` and the new state. -/
def writeUdfInput {S : Type} (g : Guest S) (s : S) (buf : List Byte) : Except Err (Int × Nat × S) :=
  match toI32 (buf.length + 4) with
  | .error e => .error e
  | .ok size =>
    match g.alloc s size with
    | none => .error .error
    | some (p, s) =>
      match toUsize p with
      | .error e => .error e
      | .ok ptr =>
        match pokeInput g s ptr buf with
        | .error e => .error e
        | .ok s => .ok (p, size, s)

/-- `read_udf_output` (130-166): the value, and the size for `dealloc`. -/
def readUdfOutput {S : Type} (g : Guest S) (c : Codec) (s : S) (p : Int) : Except Err (MP × Nat) :=
  match toUsize p with
  | .error e => .error e
  | .ok ptr =>
    match readOutput (g.mem s) ptr with
    | .error e => .error e
    | .ok bs =>
      match c.de bs with
      | none => .error .error
      | some v =>
        match toI32 (bs.length + 4) with
        | .error e => .error e
        | .ok size => .ok (v, size)

/-- The two `dealloc`s of a call (225-238). -/
def deallocBoth {S : Type} (g : Guest S) (s : S) (p : Int) (n : Nat) (q : Int) (k : Nat) : Except Err S :=
  match g.dealloc s p n with
  | none => .error .error
  | some s =>
    match g.dealloc s q k with
    | none => .error .error
    | some s => .ok s

/-- `call` (215-240). -/
def call {S : Type} (g : Guest S) (c : Codec) (s : S) (args : List MP) : Except Err (MP × S) :=
  match c.ser (.arr args) with
  | none => .error .error
  | some buf =>
    match writeUdfInput g s buf with
    | .error e => .error e
    | .ok (p, n, s) =>
      match g.udf s p with
      | none => .error .error
      | some (q, s) =>
        match readUdfOutput g c s q with
        | .error e => .error e
        | .ok (v, k) =>
          match deallocBoth g s p n q k with
          | .error e => .error e
          | .ok s => .ok (v, s)

/-- The loop over the rows (597-615), with the instance it uses. -/
def callRowsG {S : Type} (g : Guest S) (c : Codec) (tys : List Ty) (args : List Arr) :
    S → List Nat → Except Err (List MP × S)
  | s, [] => .ok ([], s)
  | s, row :: rows =>
    match encodeRow row tys args with
    | .error e => .error e
    | .ok ps =>
      match call g c s ps with
      | .error e => .error e
      | .ok (r, s) =>
        match callRowsG g c tys args s rows with
        | .error e => .error e
        | .ok (rs, s) => .ok (r :: rs, s)

/-- The closure (575-620); `s` is the state of a new instance, which each batch gets. -/
def applyGuest {S : Type} (toF64 : Int → Nat) (widen : Nat → Nat) (g : Guest S) (c : Codec) (s : S)
    (tys : List Ty) (ret : Ty) (args : List Arg) : Except Err Arr :=
  if args.length ≠ tys.length then .error .error
  else
    match toArrays args with
    | [] => .error .panic
    | a :: as =>
      match callRowsG g c tys (a :: as) s (List.range a.length) with
      | .error e => .error e
      | .ok (rs, _) => decodeAll toF64 widen ret rs

end Seafowl.Wasm.Msg
