import Verif.Misc.WasmLegacy
import Verif.Misc.WasmProps

/-!
# C108: functions in the language `wasm` return what the guest returns
-/
namespace Seafowl.Wasm

variable {S : Type}

/-! ### specification -/

/-- The column type of a WASM type. -/
def sqlVal : WVal → Option Val
  | .i32 v => some (.i32 v)
  | .i64 v => some (.i64 v)
  | .f32 b => some (.f32 b)
  | .f64 b => some (.f64 b)
  | .other => none

/-- Argument `a` has in row `i` the value `v`, which is not NULL. -/
def HasArg (i : Nat) (a : Arg) (v : WVal) : Prop :=
  ∃ s, argAt a i = some s ∧ s.valid = true ∧ sqlVal v = some s.val

/-- The arguments of row `i`. -/
inductive RowArgs (i : Nat) : List Arg → List WVal → Prop
  | nil : RowArgs i [] []
  | cons {a : Arg} {v : WVal} {as : List Arg} {vs : List WVal} :
      HasArg i a v → RowArgs i as vs → RowArgs i (a :: as) (v :: vs)

/-- The answers of one instance to a sequence of calls; `none` if one of them traps. -/
def answers (run : S → List WVal → Option (List WVal × S)) : S → List (List WVal) → Option (List WVal)
  | _, [] => some []
  | s, ps :: rest =>
    match run s ps with
    | some ([r], s') => (answers run s' rest).map (r :: ·)
    | _ => none

/-- The runtime's promise about a validated module: results have the declared types. -/
def Export.Typed (e : Export S) : Prop :=
  ∀ s ps rs s', e.run s ps = some (rs, s') → rs.map WVal.ty = e.results

/-! ### one row -/

theorem wasmArg_eq {v : WVal} {s : Slot} (hv : sqlVal v = some s.val) : wasmArg v.ty s = .ok v := by
  cases v <;> simp only [sqlVal, Option.some.injEq, reduceCtorEq] at hv <;>
    simp [wasmArg, WVal.ty, ← hv]

theorem spread_get {n i : Nat} (hi : i < n) {a : Arg} {s : Slot} (h : argAt a i = some s) :
    (spread n a)[i]? = some s := by
  cases a with
  | array arr => exact h
  | scalar x =>
    simp only [argAt, Option.some.injEq] at h
    subst h
    simp [spread, hi]

theorem wasmRow_eq {n i : Nat} (hi : i < n) : ∀ {args : List Arg} {vs : List WVal},
    RowArgs i args vs → wasmRow i (vs.map WVal.ty) (args.map (spread n)) = .ok vs
  | _, _, .nil => rfl
  | _, _, .cons ⟨s, h1, _, h3⟩ hr => by
    simp only [List.map_cons, wasmRow, spread_get hi h1, wasmArg_eq h3, wasmRow_eq hi hr]

/-! ### all rows -/

theorem callAll_eq (e : Export S) (ht : e.Typed) {n : Nat} {args : List Arg} {ret : WTy}
    (hres : e.results = [ret]) (rowv : Nat → List WVal) : ∀ (rows : List Nat) (s : S),
    (∀ i ∈ rows, i < n ∧ RowArgs i args (rowv i) ∧ (rowv i).map WVal.ty = e.params) →
    callAll e e.params (args.map (spread n)) s rows =
      match answers e.run s (rows.map rowv) with
      | some rs => .ok rs
      | none => .error .error
  | [], _, _ => rfl
  | i :: rows, s, h => by
    obtain ⟨hi, hr, hty⟩ := h i (by simp)
    have h1 : wasmRow i e.params (args.map (spread n)) = .ok (rowv i) := by
      rw [← hty]; exact wasmRow_eq hi hr
    have ih := fun s' => callAll_eq e ht hres rowv rows s' (fun j hj => h j (by simp [hj]))
    have hc : ¬ ((rowv i).map WVal.ty ≠ e.params ∨ e.results.length ≠ 1) := by
      simp [hty, hres]
    simp only [List.map_cons, callAll, h1, callExport, if_neg hc, answers]
    cases hrun : e.run s (rowv i) with
    | none => rfl
    | some q =>
      obtain ⟨rs, s'⟩ := q
      have hl := ht s (rowv i) rs s' hrun
      rw [hres] at hl
      match rs, hl with
      | [r], _ =>
        simp only [ih s']
        cases answers e.run s' (rows.map rowv) <;> rfl

/-- Values of the declared type are turned into values of the column. -/
theorem fromWasmAll_eq (ret : WTy) (hret : ret ≠ .other) : ∀ rs : List WVal,
    (∀ r ∈ rs, r.ty = ret) → ∃ vs : List Val, rs.map sqlVal = vs.map some ∧
      fromWasmAll ret rs = .ok (vs.map fun v => ⟨v, true⟩)
  | [], _ => ⟨[], rfl, rfl⟩
  | r :: rs, h => by
    obtain ⟨vs, h1, h2⟩ := fromWasmAll_eq ret hret rs (fun x hx => h x (by simp [hx]))
    have hr := h r (by simp)
    cases r with
    | other => exact absurd hr.symm hret
    | i32 v => subst hr; exact ⟨.i32 v :: vs, by simp [h1, sqlVal], by simp only [WVal.ty] at h2; simp [fromWasmAll, fromWasm, WVal.ty, h2]⟩
    | i64 v => subst hr; exact ⟨.i64 v :: vs, by simp [h1, sqlVal], by simp only [WVal.ty] at h2; simp [fromWasmAll, fromWasm, WVal.ty, h2]⟩
    | f32 b => subst hr; exact ⟨.f32 b :: vs, by simp [h1, sqlVal], by simp only [WVal.ty] at h2; simp [fromWasmAll, fromWasm, WVal.ty, h2]⟩
    | f64 b => subst hr; exact ⟨.f64 b :: vs, by simp [h1, sqlVal], by simp only [WVal.ty] at h2; simp [fromWasmAll, fromWasm, WVal.ty, h2]⟩

theorem answers_ty (e : Export S) (ht : e.Typed) {ret : WTy} (hres : e.results = [ret]) :
    ∀ (pss : List (List WVal)) (s : S) (rs : List WVal), answers e.run s pss = some rs →
      (∀ r ∈ rs, r.ty = ret) ∧ rs.length = pss.length
  | [], _, rs, h => by
    simp only [answers, Option.some.injEq] at h
    subst h
    simp
  | ps :: pss, s, rs, h => by
    simp only [answers] at h
    split at h
    · next r s' hrun =>
      obtain ⟨rs', h1, rfl⟩ := Option.map_eq_some_iff.1 h
      obtain ⟨i1, i2⟩ := answers_ty e ht hres pss s' rs' h1
      have := ht s ps [r] s' hrun
      rw [hres] at this
      simp only [List.map_cons, List.map_nil, List.cons.injEq, and_true] at this
      refine ⟨?_, by simp [i2]⟩
      intro x hx
      rcases List.mem_cons.1 hx with rfl | hx
      · exact this
      · exact i1 x hx
    · exact absurd h (by simp)

theorem wasmTypes_ne : ∀ {ins : List Ty} {ws : List WTy}, wasmTypes ins = some ws →
    WTy.other ∉ ws ∧ ws.length = ins.length
  | [], ws, h => by
    simp only [wasmTypes, Option.some.injEq] at h
    subst h; simp
  | t :: ts, ws, h => by
    simp only [wasmTypes] at h
    split at h
    · next w ws' hw hws =>
      simp only [Option.some.injEq] at h
      subst h
      obtain ⟨h1, h2⟩ := wasmTypes_ne hws
      refine ⟨?_, by simp [h2]⟩
      intro hm
      rcases List.mem_cons.1 hm with h | h
      · cases t <;> simp [getWasmType] at hw <;> rw [← hw] at h <;> exact absurd h (by decide)
      · exact h1 h
    · exact absurd h (by simp)

theorem getWasmType_ne {t : Ty} {w : WTy} (h : getWasmType t = some w) : w ≠ .other := by
  cases t <;> simp [getWasmType] at h <;> subst h <;> decide

/-! ### C108 -/

/-- The four types of the machine and the SQL types they stand for; every other type has none. -/
theorem C108_types (t : Ty) (w : WTy) : getWasmType t = some w ↔
    (t = .int ∧ w = .i32) ∨ (t = .bigint ∧ w = .i64) ∨ (t = .real ∧ w = .f32) ∨
      (t = .double ∧ w = .f64) := by
  cases t <;> cases w <;> simp [getWasmType]

/-- C108.  A value of another type than declared is an error of the statement, not a panic. -/
theorem C108_mismatch (t : Ty) (w : WTy) (ht : getWasmType t = some w) (s : Slot) :
    (∃ v, wasmArg w s = .ok v ∧ v.ty = w ∧ sqlVal v = some s.val) ∨
      (wasmArg w s = .error .error ∧ ∀ v, v.ty = w → sqlVal v ≠ some s.val) := by
  obtain ⟨val, ok⟩ := s
  cases t <;> simp only [getWasmType, Option.some.injEq, reduceCtorEq] at ht <;> subst ht <;> cases val <;>
    first
    | exact .inl ⟨_, rfl, rfl, rfl⟩
    | (refine .inr ⟨rfl, fun v hv => ?_⟩; cases v <;> simp [WVal.ty, sqlVal] at hv ⊢)

/-- When CREATE FUNCTION succeeds: the types are among the four of the machine, the bytes are a module
that can be instantiated, and it exports something under the name. -/
theorem C108_created (load : Option (Guest S)) (name : String) (ins : List Ty) (ret : Ty)
    (f : Legacy S) :
    createLegacy load name ins ret = .ok f ↔
      ∃ ws r g, wasmTypes ins = some ws ∧ getWasmType ret = some r ∧ load = some g ∧
        g.start.isSome ∧ (g.func name).isSome ∧ f = ⟨g, name, ws, r⟩ := by
  unfold createLegacy
  cases hw : wasmTypes ins with
  | none => simp
  | some ws =>
    cases hr : getWasmType ret with
    | none => simp
    | some r =>
      cases load with
      | none => simp
      | some g =>
        simp only
        cases hs : g.start with
        | none => simp [hs]
        | some s =>
          cases hf : g.func name with
          | none => simp [hf]
          | some e =>
            simp only [Option.isNone_some, Bool.false_eq_true, if_false, Except.ok.injEq]
            constructor
            · rintro rfl
              exact ⟨ws, r, g, rfl, rfl, rfl, by simp [hs], by simp [hf], rfl⟩
            · rintro ⟨ws', r', g', h1, h2, h3, _, _, h6⟩
              cases h1; cases h2; cases h3
              exact h6.symm

/-- C108.  A created function whose entry point has the declared types, applied to a batch of `n ≥ 1`
rows without NULLs, asks a fresh instance for row after row: if no call traps, the result has one value
per row, the guest's answer; if one does, the statement fails.  It never panics.
Missing: NULLs, functions without arguments, entry points with other types than declared. -/
theorem C108_rows_partial (load : Option (Guest S)) (name : String) (ins : List Ty) (ret : Ty)
    (f : Legacy S) (hf : createLegacy load name ins ret = .ok f)
    (s : S) (hs : f.guest.start = some s) (e : Export S) (he : f.guest.func name = some e)
    (ht : e.Typed) (hsig : wasmTypes ins = some e.params ∧ ∃ r, getWasmType ret = some r ∧ e.results = [r])
    (args : List Arg) (n : Nat) (hb : Batch n args) (hne : args ≠ [])
    (hex : n = 1 ∨ ∃ a, .array a ∈ args) (rowv : Nat → List WVal)
    (hrow : ∀ i, i < n → RowArgs i args (rowv i) ∧ (rowv i).map WVal.ty = e.params) :
    match answers e.run s ((List.range n).map rowv) with
    | none => applyLegacy f args = .error .error
    | some rs => ∃ vs : List Val, rs.map sqlVal = vs.map some ∧ vs.length = n ∧
        applyLegacy f args = .ok (vs.map fun v => ⟨v, true⟩) := by
  obtain ⟨ws, r, g, h1, h2, _, _, _, rfl⟩ := (C108_created load name ins ret f).1 hf
  obtain ⟨hp, r', hr', hres⟩ := hsig
  rw [h1] at hp; rw [h2] at hr'
  cases hp; cases hr'
  have hlen : args.length = e.params.length := by
    have := hrow 0 (by have := hb.1; omega)
    have h3 : ∀ {as : List Arg} {vs : List WVal}, RowArgs 0 as vs → as.length = vs.length := by
      intro as vs h
      induction h with
      | nil => rfl
      | cons _ _ ih => simp [ih]
    rw [h3 this.1, ← this.2, List.length_map]
  have harr := toArrays_eq n args hb (Or.inr hex)
  have hap : applyLegacy ⟨g, name, e.params, r⟩ args =
      match callAll e e.params (args.map (spread n)) s (List.range n) with
      | .error x => .error x
      | .ok rs => fromWasmAll r rs := by
    simp only at hs he
    simp only [applyLegacy, hs, he, if_neg (show ¬ args.length ≠ e.params.length by simp [hlen]), harr]
    cases args with
    | nil => exact absurd rfl hne
    | cons a as =>
      have hl : (spread n a).length = n := by
        cases a with
        | array arr => exact hb.2 _ (by simp) arr rfl
        | scalar s => simp [spread]
      simp only [List.map_cons, hl]
      rfl
  have hcall := callAll_eq (n := n) (args := args) e ht hres rowv (List.range n) s (fun i hi => by
    have hi' := List.mem_range.1 hi
    exact ⟨hi', (hrow i hi').1, (hrow i hi').2⟩)
  rw [hap, hcall]
  cases ha : answers e.run s ((List.range n).map rowv) with
  | none => rfl
  | some rs =>
    obtain ⟨hty, hlr⟩ := answers_ty e ht hres _ s rs ha
    obtain ⟨vs, hv1, hv2⟩ := fromWasmAll_eq r (getWasmType_ne h2) rs hty
    refine ⟨vs, hv1, ?_, hv2⟩
    have := congrArg List.length hv1
    simp only [List.length_map, List.length_range] at this hlr
    omega

/-- The answers of a guest whose results do not depend on its state. -/
theorem answers_pure (run : S → List WVal → Option (List WVal × S)) (g : List WVal → WVal)
    (hg : ∀ s ps, ∃ s', run s ps = some ([g ps], s')) : ∀ (pss : List (List WVal)) (s : S),
    answers run s pss = some (pss.map g)
  | [], _ => rfl
  | ps :: pss, s => by
    obtain ⟨s', h⟩ := hg s ps
    simp only [answers, h, answers_pure run g hg pss s', Option.map_some, List.map_cons]

/-- C108 for guests without memory: value `i` of the result is the guest's value on row `i`, so it does
not matter how the rows are split into batches.  Missing: guests that keep state between calls, see
`C108_violated_state`. -/
theorem C108_pure_partial (load : Option (Guest S)) (name : String) (ins : List Ty) (ret : Ty)
    (f : Legacy S) (hf : createLegacy load name ins ret = .ok f)
    (s : S) (hs : f.guest.start = some s) (e : Export S) (he : f.guest.func name = some e)
    (ht : e.Typed) (hsig : wasmTypes ins = some e.params ∧ ∃ r, getWasmType ret = some r ∧ e.results = [r])
    (g : List WVal → WVal) (hg : ∀ s ps, ∃ s', e.run s ps = some ([g ps], s'))
    (args : List Arg) (n : Nat) (hb : Batch n args) (hne : args ≠ [])
    (hex : n = 1 ∨ ∃ a, .array a ∈ args) (rowv : Nat → List WVal)
    (hrow : ∀ i, i < n → RowArgs i args (rowv i) ∧ (rowv i).map WVal.ty = e.params) :
    ∃ out, applyLegacy f args = .ok out ∧ out.length = n ∧
      ∀ i, i < n → ∃ v, sqlVal (g (rowv i)) = some v ∧ out[i]? = some ⟨v, true⟩ := by
  have h := C108_rows_partial load name ins ret f hf s hs e he ht hsig args n hb hne hex rowv hrow
  rw [answers_pure e.run g hg] at h
  obtain ⟨vs, h1, h2, h3⟩ := h
  refine ⟨_, h3, by simp [h2], ?_⟩
  intro i hi
  have hi' : i < vs.length := by omega
  refine ⟨vs[i], ?_, by simp [hi']⟩
  have := congrArg (fun l => l[i]?) h1
  simpa [hi, hi'] using this

/-! ### examples and violations -/

/-- `add(i32, i64) -> i64`. -/
def addFn : Export Unit where
  params := [.i32, .i64]
  results := [.i64]
  run := fun _ ps => match ps with
    | [.i32 a, .i64 b] => some ([.i64 (a + b)], ())
    | _ => some ([.i64 0], ())

/-- `next(i32) -> i32` counts its calls. -/
def countFn : Export Int where
  params := [.i32]
  results := [.i32]
  run := fun s _ => some ([.i32 s], s + 1)

/-- `half(f64) -> f64`, here the identity. -/
def floatFn : Export Unit where
  params := [.f64]
  results := [.f64]
  run := fun _ ps => match ps with
    | [.f64 b] => some ([.f64 b], ())
    | _ => some ([.f64 0], ())

def modOf (s : S) (e : Export S) : Option (Guest S) :=
  some ⟨some s, fun n => if n = "f" then some e else none⟩

theorem addFn_typed : addFn.Typed := by
  intro s ps rs s' h
  simp only [addFn] at h ⊢
  split at h <;> simp only [Option.some.injEq, Prod.mk.injEq] at h <;> rw [← h.1] <;> rfl

/-- Two rows, one argument a constant: the hypotheses of `C108_rows_partial` and the result. -/
example : ∃ f, createLegacy (modOf () addFn) "f" [.int, .bigint] .bigint = .ok f ∧
    f.guest.start = some () ∧ f.guest.func "f" = some addFn ∧
    wasmTypes [.int, .bigint] = some addFn.params ∧ getWasmType .bigint = some .i64 ∧
    Batch 2 [.array [⟨.i32 1, true⟩, ⟨.i32 2, true⟩], .scalar ⟨.i64 10, true⟩] ∧
    RowArgs 1 [.array [⟨.i32 1, true⟩, ⟨.i32 2, true⟩], .scalar ⟨.i64 10, true⟩] [.i32 2, .i64 10] ∧
    applyLegacy f [.array [⟨.i32 1, true⟩, ⟨.i32 2, true⟩], .scalar ⟨.i64 10, true⟩] =
      .ok [⟨.i64 11, true⟩, ⟨.i64 12, true⟩] := by
  refine ⟨_, rfl, rfl, rfl, rfl, rfl, ⟨by decide, ?_⟩, ?_, rfl⟩
  · intro a ha arr harr
    simp only [List.mem_cons, List.not_mem_nil, or_false] at ha
    rcases ha with rfl | rfl
    · cases harr; rfl
    · cases harr
  · exact .cons ⟨⟨.i32 2, true⟩, rfl, rfl, rfl⟩ (.cons ⟨⟨.i64 10, true⟩, rfl, rfl, rfl⟩ .nil)

/-- **C108 is violated for NULLs**: two columns that are both `NULL` give different results, neither of
them NULL. -/
theorem C108_violated_null : ∃ f, createLegacy (modOf () addFn) "f" [.int, .bigint] .bigint = .ok f ∧
    applyLegacy f [.array [⟨.i32 0, false⟩], .scalar ⟨.i64 1, true⟩] = .ok [⟨.i64 1, true⟩] ∧
    applyLegacy f [.array [⟨.i32 7, false⟩], .scalar ⟨.i64 1, true⟩] = .ok [⟨.i64 8, true⟩] :=
  ⟨_, rfl, rfl, rfl⟩

/-- **C108 is violated for guests with memory**: the same two rows in one batch and in two. -/
theorem C108_violated_state : ∃ f, createLegacy (modOf 0 countFn) "f" [.int] .int = .ok f ∧
    applyLegacy f [.array [⟨.i32 5, true⟩, ⟨.i32 5, true⟩]] = .ok [⟨.i32 0, true⟩, ⟨.i32 1, true⟩] ∧
    applyLegacy f [.array [⟨.i32 5, true⟩]] = .ok [⟨.i32 0, true⟩] :=
  ⟨_, rfl, rfl, rfl⟩

/-- **C108 is violated for declarations that do not fit the code**: the function is created although
the entry point takes other arguments, and no call can succeed. -/
theorem C108_violated_signature : ∃ f, createLegacy (modOf () floatFn) "f" [.int] .int = .ok f ∧
    ∀ v, applyLegacy f [.array [⟨.i32 v, true⟩]] = .error .error :=
  ⟨_, rfl, fun _ => rfl⟩

/-- The same for the result: the function is created and calls panic. -/
theorem C108_violated_result : ∃ f, createLegacy (modOf () floatFn) "f" [.double] .int = .ok f ∧
    ∀ b, applyLegacy f [.array [⟨.f64 b, true⟩]] = .error .panic :=
  ⟨_, rfl, fun _ => rfl⟩

/-- An argument type the machine does not have panics already in CREATE FUNCTION, where a result of
such a type is an error. -/
theorem C108_violated_create (load : Option (Guest S)) (name : String) :
    createLegacy load name [.text] .int = .error .panic ∧
    createLegacy load name [.int] .text = .error .error := ⟨rfl, rfl⟩

/-- A function without arguments panics. -/
theorem C108_violated_nullary : ∃ f,
    createLegacy (modOf () { floatFn with params := [] }) "f" [] .double = .ok f ∧
    applyLegacy f [] = .error .panic := ⟨_, rfl, rfl⟩

/-- The same column without NULLs: what the slots happen to hold is there. -/
def Arg.filled : Arg → Arg
  | .array a => .array (a.map fun s => ⟨s.val, true⟩)
  | .scalar s => .scalar ⟨s.val, true⟩

theorem toArrays_filled (args : List Arg) :
    toArrays (args.map Arg.filled) = (toArrays args).map (·.map fun s => ⟨s.val, true⟩) := by
  have hl : (args.map Arg.filled).map Arg.len = args.map Arg.len := by
    rw [List.map_map]
    apply List.map_congr_left
    intro a _
    cases a <;> simp [Arg.filled, Arg.len]
  simp only [toArrays, hl, List.map_map]
  apply List.map_congr_left
  intro a _
  cases a <;> simp [Arg.filled]

theorem wasmRow_filled (row : Nat) : ∀ (ws : List WTy) (as : List Arr),
    wasmRow row ws (as.map (·.map fun s => ⟨s.val, true⟩)) = wasmRow row ws as
  | [], _ => by cases ‹List Arr› <;> rfl
  | _ :: _, [] => rfl
  | w :: ws, a :: as => by
    simp only [List.map_cons, wasmRow, List.getElem?_map, wasmRow_filled row ws as]
    cases a[row]? <;> rfl

theorem callAll_filled (e : Export S) (ws : List WTy) (as : List Arr) : ∀ (rows : List Nat) (s : S),
    callAll e ws (as.map (·.map fun s => ⟨s.val, true⟩)) s rows = callAll e ws as s rows
  | [], _ => rfl
  | r :: rows, s => by
    simp only [callAll, wasmRow_filled]
    cases wasmRow r ws as with
    | error x => rfl
    | ok ps =>
      simp only
      cases callExport e s ps with
      | error x => rfl
      | ok p => simp only [callAll_filled e ws as rows p.2]

theorem fromWasmAll_valid (ret : WTy) : ∀ (rs : List WVal) (out : Arr), fromWasmAll ret rs = .ok out → ∀ s ∈ out, s.valid = true
  | [], out, h => by simp only [fromWasmAll, Except.ok.injEq] at h; subst h; simp
  | r :: rs, out, h => by
    simp only [fromWasmAll] at h
    split at h
    · cases h
    · split at h
      · cases h
      · next vs hv =>
        simp only [Except.ok.injEq] at h
        subst h
        intro s hs
        rcases List.mem_cons.1 hs with rfl | hs
        · rfl
        · exact fromWasmAll_valid ret rs vs hv s hs

/-- Whatever the function and the batch: NULLs are passed as what their slots happen to hold, and the result is never
NULL. -/
theorem C108_violated_null_always (f : Legacy S) (args : List Arg) :
    applyLegacy f (args.map Arg.filled) = applyLegacy f args ∧
    ∀ out, applyLegacy f args = .ok out → ∀ s ∈ out, s.valid = true := by
  constructor
  · simp only [applyLegacy, List.length_map, toArrays_filled]
    cases f.guest.start with
    | none => rfl
    | some s =>
      cases f.guest.func f.name with
      | none => rfl
      | some e =>
        simp only
        split
        · rfl
        · cases hA : toArrays args with
          | nil => rfl
          | cons a as =>
            have h := callAll_filled e f.ins (a :: as)
            simp only [List.map_cons] at h
            simp only [List.map_cons, h, List.length_map]
  · intro out h
    simp only [applyLegacy] at h
    split at h
    · split at h
      · cases h
      · split at h
        · cases h
        · split at h
          · cases h
          · exact fromWasmAll_valid _ _ _ h
    · cases h

/-- Whatever the code: an argument of a type that the machine does not have makes CREATE FUNCTION panic. -/
theorem C108_violated_create_always (load : Option (Guest S)) (name : String) (ins : List Ty) (ret : Ty)
    (h : ∃ t ∈ ins, t ≠ .int ∧ t ≠ .bigint ∧ t ≠ .real ∧ t ≠ .double) : createLegacy load name ins ret = .error .panic := by
  have hn : ∀ ins : List Ty, (∃ t ∈ ins, t ≠ .int ∧ t ≠ .bigint ∧ t ≠ .real ∧ t ≠ .double) → wasmTypes ins = none := by
    intro ins
    induction ins with
    | nil => rintro ⟨t, ht, -⟩; cases ht
    | cons x xs ih =>
      rintro ⟨t, ht, h1, h2, h3, h4⟩
      rcases List.mem_cons.1 ht with rfl | ht
      · have : getWasmType t = none := by cases t <;> simp_all [getWasmType]
        simp [wasmTypes, this]
      · simp [wasmTypes, ih ⟨t, ht, h1, h2, h3, h4⟩]
  simp [createLegacy, hn ins h]

/-- Whatever the code: a function without arguments panics whenever it is called. -/
theorem C108_violated_nullary_always (load : Option (Guest S)) (name : String) (ret : Ty) (f : Legacy S)
    (h : createLegacy load name [] ret = .ok f) (args : List Arg) : applyLegacy f args = .error .panic := by
  obtain ⟨ws, r, g, h1, -, -, h2, h3, rfl⟩ := (C108_created load name [] ret f).1 h
  obtain ⟨s, hs⟩ := Option.isSome_iff_exists.1 h2
  obtain ⟨e, he⟩ := Option.isSome_iff_exists.1 h3
  simp only [wasmTypes, Option.some.injEq] at h1
  subst h1
  cases args with
  | nil => simp [applyLegacy, hs, he, toArrays]
  | cons a as => simp [applyLegacy, hs, he]

theorem wasmArg_ty {w : WTy} {s : Slot} {v : WVal} (h : wasmArg w s = .ok v) : v.ty = w := by
  simp only [wasmArg] at h
  split at h <;> simp only [Except.ok.injEq, reduceCtorEq] at h <;> (subst h; rfl)

theorem wasmRow_tys (row : Nat) : ∀ (ws : List WTy) (as : List Arr) (ps : List WVal), ws.length = as.length →
    wasmRow row ws as = .ok ps → ps.map WVal.ty = ws
  | [], [], ps, _, h => by simp only [wasmRow, Except.ok.injEq] at h; subst h; rfl
  | w :: ws, a :: as, ps, hl, h => by
    simp only [wasmRow] at h
    split at h
    · cases h
    · split at h
      · cases h
      · next v hv =>
        split at h
        · cases h
        · next vs hvs =>
          simp only [Except.ok.injEq] at h
          subst h
          simp [wasmArg_ty hv, wasmRow_tys row ws as vs (by simpa using hl) hvs]
  | [], _ :: _, _, hl, _ => by simp at hl
  | _ :: _, [], _, hl, _ => by simp at hl

/-- Whatever the code: a function whose entry point takes other types than the declared ones, or does not return one value,
is created like any other, and no call with a row succeeds. -/
theorem C108_violated_signature_always (load : Option (Guest S)) (name : String) (ins : List Ty) (ret : Ty)
    (f : Legacy S) (hf : createLegacy load name ins ret = .ok f) (e : Export S) (he : f.guest.func name = some e)
    (hsig : wasmTypes ins ≠ some e.params ∨ e.results.length ≠ 1) (args : List Arg) (out : Arr)
    (h : applyLegacy f args = .ok out) : out = [] := by
  obtain ⟨ws, r, g, h1, -, -, h2, h3, rfl⟩ := (C108_created load name ins ret f).1 hf
  obtain ⟨s, hs⟩ := Option.isSome_iff_exists.1 h2
  simp only at he
  simp only [applyLegacy, hs, he] at h
  split at h
  · cases h
  · next hlen =>
    simp only [ne_eq, Classical.not_not] at hlen
    have hl : ws.length = (toArrays args).length := by simp [toArrays, hlen]
    split at h
    · cases h
    · next a as hA =>
      cases hr : List.range a.length with
      | nil =>
        rw [hr] at h
        simp only [callAll, fromWasmAll, Except.ok.injEq] at h
        exact h.symm
      | cons row rows =>
        rw [hr, hA] at h
        simp only [callAll] at h
        rw [hA] at hl
        cases hw : wasmRow row ws (a :: as) with
        | error x => rw [hw] at h; cases h
        | ok ps =>
          have ht := wasmRow_tys row ws (a :: as) ps hl hw
          have hc : callExport e s ps = .error .error := by
            unfold callExport
            rw [if_pos]
            rcases hsig with h4 | h4
            · exact .inl fun h5 => h4 (by rw [h1, ← ht, h5])
            · exact .inr h4
          rw [hw] at h
          simp only [hc] at h
          cases h

end Seafowl.Wasm
