import Verif.Misc.Wasm

/-!
# Functions in the language `wasm`

Modelled: /repo/src/wasm_udf/wasm.rs 243-261 (`get_arrow_value`), 625-765
(`make_scalar_function_from_wasm`), 767-809 (`create_udf_from_wasm`, this language),
/repo/src/wasm_udf/data_types.rs 11-29 (`get_wasm_type`).

A module is what the runtime makes of it: whether it can be instantiated without imports, and its
exported functions with their types.  `S` is the state of an instance (memory, globals).  The runtime
(`Func::call`) checks the types of the arguments and the number of results, and a validated module
returns values of the types it declares.
-/
namespace Seafowl.Wasm

/-- `ValType`; `other`: vectors and references. -/
inductive WTy where
  | i32 | i64 | f32 | f64 | other
  deriving DecidableEq, Repr

/-- `wasmtime::Val`; floating point numbers by their bits. -/
inductive WVal where
  | i32 (v : Int) | i64 (v : Int) | f32 (bits : Nat) | f64 (bits : Nat) | other
  deriving DecidableEq, Repr

def WVal.ty : WVal → WTy
  | .i32 _ => .i32 | .i64 _ => .i64 | .f32 _ => .f32 | .f64 _ => .f64 | .other => .other

/-- An exported function.  `none` is a trap. -/
structure Export (S : Type) where
  params : List WTy
  results : List WTy
  run : S → List WVal → Option (List WVal × S)

/-- A module; `start` is the state of a fresh instance, `none` if it cannot be instantiated. -/
structure Guest (S : Type) where
  start : Option S
  func : String → Option (Export S)

variable {S : Type}

/-- `get_wasm_type` (data_types.rs 11-29). -/
def getWasmType : Ty → Option WTy
  | .int => some .i32
  | .bigint => some .i64
  | .real => some .f32
  | .double => some .f64
  | _ => none

/-- All or none. -/
def wasmTypes : List Ty → Option (List WTy)
  | [] => some []
  | t :: ts =>
    match getWasmType t, wasmTypes ts with
    | some w, some ws => some (w :: ws)
    | _, _ => none

/-- What the closure of a created function has captured (654-656). -/
structure Legacy (S : Type) where
  guest : Guest S
  name : String
  ins : List WTy
  ret : WTy

/-- `create_udf_from_wasm` (767-793) with the checks of `make_scalar_function_from_wasm` (634-647).
`load` is `none` if the bytes are no module.  `unwrap` on the argument types panics. -/
def createLegacy (load : Option (Guest S)) (name : String) (ins : List Ty) (ret : Ty) :
    Except Err (Legacy S) :=
  match wasmTypes ins with
  | none => .error .panic
  | some ws =>
    match getWasmType ret with
    | none => .error .error
    | some r =>
      match load with
      | none => .error .error
      | some g =>
        if g.start.isNone then .error .error
        else
          match g.func name with
          | none => .error .error
          | some _ => .ok ⟨g, name, ws, r⟩

/-- `get_arrow_value` (243-261) and the match on the argument type (692-718).  The slot is not asked
whether it is NULL. -/
def wasmArg (w : WTy) (s : Slot) : Except Err WVal :=
  match w, s.val with
  | .i32, .i32 v => .ok (.i32 v)
  | .i64, .i64 v => .ok (.i64 v)
  | .f32, .f32 b => .ok (.f32 b)
  | .f64, .f64 b => .ok (.f64 b)
  | .other, _ => .error .panic
  | _, _ => .error .error

/-- The parameters of one row (690-720); `value(row_ix)` panics out of bounds. -/
def wasmRow (row : Nat) : List WTy → List Arr → Except Err (List WVal)
  | w :: ws, a :: as =>
    match a[row]? with
    | none => .error .panic
    | some s =>
      match wasmArg w s with
      | .error e => .error e
      | .ok v =>
        match wasmRow row ws as with
        | .error e => .error e
        | .ok vs => .ok (v :: vs)
  | _, _ => .ok []

/-- `func.call` with room for one result (722-727). -/
def callExport (e : Export S) (s : S) (ps : List WVal) : Except Err (WVal × S) :=
  if ps.map WVal.ty ≠ e.params ∨ e.results.length ≠ 1 then .error .error
  else
    match e.run s ps with
    | none => .error .error
    | some ([r], s') => .ok (r, s')
    | some (_, _) => .error .error

/-- The loop over the rows (689-728): one instance for all of them. -/
def callAll (e : Export S) (ws : List WTy) (arrs : List Arr) :
    S → List Nat → Except Err (List WVal)
  | _, [] => .ok []
  | s, row :: rows =>
    match wasmRow row ws arrs with
    | .error x => .error x
    | .ok ps =>
      match callExport e s ps with
      | .error x => .error x
      | .ok (r, s') =>
        match callAll e ws arrs s' rows with
        | .error x => .error x
        | .ok rs => .ok (r :: rs)

/-- `unwrap_i32` and so on, which panic for a value of another type (734-761). -/
def fromWasm (ret : WTy) (r : WVal) : Except Err Val :=
  match ret, r with
  | .i32, .i32 v => .ok (.i32 v)
  | .i64, .i64 v => .ok (.i64 v)
  | .f32, .f32 b => .ok (.f32 b)
  | .f64, .f64 b => .ok (.f64 b)
  | _, _ => .error .panic

def fromWasmAll (ret : WTy) : List WVal → Except Err Arr
  | [] => .ok []
  | r :: rs =>
    match fromWasm ret r with
    | .error e => .error e
    | .ok v =>
      match fromWasmAll ret rs with
      | .error e => .error e
      | .ok vs => .ok (⟨v, true⟩ :: vs)

/-- The closure (657-764): every call, that is every batch, makes a new instance. -/
def applyLegacy (f : Legacy S) (args : List Arg) : Except Err Arr :=
  match f.guest.start, f.guest.func f.name with
  | some s, some e =>
    if args.length ≠ f.ins.length then .error .panic
    else
      let arrs := toArrays args
      match arrs with
      | [] => .error .panic
      | a :: _ =>
        match callAll e f.ins arrs s (List.range a.length) with
        | .error x => .error x
        | .ok rs => fromWasmAll f.ret rs
  | _, _ => .error .error

end Seafowl.Wasm
