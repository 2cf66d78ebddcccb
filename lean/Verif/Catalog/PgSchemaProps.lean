import Verif.Catalog.PgSchema

/-!
# C126: catalogs in different schemas of one database are separate
-/
namespace Seafowl.PgSchema
open Seafowl.Upgrade (Typ)

/-! ### specification -/

/-- Statements of two servers, in any order. -/
abbrev Log := List (Bool × Stmt)

/-- What happens if servers with the schemas `a` (`true`) and `b` (`false`) work on one database. -/
def both (a b : Text) (db : Db) (l : Log) : Db := l.foldl (fun d x => run (if x.1 then a else b) d x.2) db

/-- The statements of one of them. -/
def mine (who : Bool) (l : Log) : List Stmt := (l.filter (fun x => x.1 == who)).map (·.2)

/-- One of them on its own. -/
def alone (a : Text) (db : Db) (l : List Stmt) : Db := l.foldl (run a) db

/-- The catalog in a schema. -/
def catalog (db : Db) (s : Text) : Nat × (Table → List Row) := (db.level s, db.rows s)

/-- ASCII letters. -/
def upper : Text := "ABCDEFGHIJKLMNOPQRSTUVWXYZ".toList
def lower : Text := "abcdefghijklmnopqrstuvwxyz".toList

/-! ### lemmas -/

theorem resolve_started {db : Db} {s : Text} (h : db.level s = 4) (t : Table) : resolve db t (path s) = some s := by
  have : has (db.level s) t = true := by rw [h]; cases t <;> rfl
  simp [path, resolve, this]

theorem run_level (s : Text) (db : Db) (q : Stmt) : (run s db q).level = db.level := by
  unfold run
  split <;> rfl

theorem run_other {db : Db} {s s' : Text} (h : db.level s = 4) (hne : s' ≠ s) (q : Stmt) :
    (run s db q).rows s' = db.rows s' := by
  unfold run
  rw [resolve_started h]
  funext t
  simp [setRows, hne]

theorem view_started {db : Db} {s : Text} (h : db.level s = 4) : view db s = db.rows s := by
  funext t
  simp [view, resolve_started h]

theorem run_same {d e : Db} {s : Text} (hd : d.level s = 4) (he : e.level s = 4) (hr : d.rows s = e.rows s) (q : Stmt) :
    (run s d q).rows s = (run s e q).rows s := by
  unfold run
  rw [resolve_started hd, resolve_started he, view_started hd, view_started he, hr]
  funext t
  simp [setRows, hr]

theorem alone_level (a : Text) (db : Db) (l : List Stmt) : (alone a db l).level = db.level := by
  induction l generalizing db with
  | nil => rfl
  | cons q l ih => exact (ih (run a db q)).trans (run_level a db q)

theorem both_level (a b : Text) (db : Db) (l : Log) : (both a b db l).level = db.level := by
  induction l generalizing db with
  | nil => rfl
  | cons x l ih => exact (ih _).trans (run_level _ db x.2)

theorem alone_same {a : Text} (l : List Stmt) {d e : Db} (hd : d.level a = 4) (he : e.level a = 4) (hr : d.rows a = e.rows a) :
    (alone a d l).rows a = (alone a e l).rows a := by
  induction l generalizing d e with
  | nil => exact hr
  | cons q l ih =>
    exact ih (by rw [run_level]; exact hd) (by rw [run_level]; exact he) (run_same hd he hr q)

theorem both_mine {a b : Text} (hne : a ≠ b) (l : Log) {db : Db} (ha : db.level a = 4) (hb : db.level b = 4) :
    (both a b db l).rows a = (alone a db (mine true l)).rows a ∧
    (both a b db l).rows b = (alone b db (mine false l)).rows b := by
  induction l generalizing db with
  | nil => exact ⟨rfl, rfl⟩
  | cons x l ih =>
    obtain ⟨w, q⟩ := x
    cases w with
    | true =>
      have ha' : (run a db q).level a = 4 := by rw [run_level]; exact ha
      have hb' : (run a db q).level b = 4 := by rw [run_level]; exact hb
      obtain ⟨h1, h2⟩ := ih ha' hb'
      refine ⟨by simpa [both, mine, alone] using h1, ?_⟩
      have h3 : (alone b (run a db q) (mine false l)).rows b = (alone b db (mine false l)).rows b :=
        alone_same _ hb' hb (run_other ha (fun e => hne e.symm) q)
      have h4 : mine false ((true, q) :: l) = mine false l := by simp [mine]
      rw [h4, ← h3, ← h2]
      rfl
    | false =>
      have ha' : (run b db q).level a = 4 := by rw [run_level]; exact ha
      have hb' : (run b db q).level b = 4 := by rw [run_level]; exact hb
      obtain ⟨h1, h2⟩ := ih ha' hb'
      refine ⟨?_, by simpa [both, mine, alone] using h2⟩
      have h3 : (alone a (run b db q) (mine true l)).rows a = (alone a db (mine true l)).rows a :=
        alone_same _ ha' ha (run_other hb hne q)
      have h4 : mine true ((false, q) :: l) = mine true l := by simp [mine]
      rw [h4, ← h3, ← h1]
      rfl

theorem fold_eq (c : Char) : (∀ i : Nat, upper[i]? = some c → lower[i]? = some (fold c)) ∧ (c ∉ upper → fold c = c) := by
  constructor
  · intro i hi
    have hlt : i < 26 := by
      rcases Nat.lt_or_ge i 26 with h | h
      · exact h
      · rw [List.getElem?_eq_none (by rw [show upper.length = 26 by decide +kernel]; exact h)] at hi
        exact absurd hi (by simp)
    have key : ∀ j : Fin 26, lower[j.1]? = (upper[j.1]?).map fold := by decide +kernel
    have := key ⟨i, hlt⟩
    rw [this, hi]
    rfl
  · intro hn
    unfold fold
    rw [if_neg]
    rintro ⟨h1, h2⟩
    apply hn
    rw [Char.le_def, UInt32.le_iff_toNat_le] at h1 h2
    have e1 : ('A' : Char).val.toNat = 65 := rfl
    have e2 : ('Z' : Char).val.toNat = 90 := rfl
    have : c = Char.ofNat c.toNat := by simp
    have hb : 65 ≤ c.toNat ∧ c.toNat < 65 + 26 := by
      simp only [Char.toNat] at *
      omega
    have key : ∀ j : Fin 26, Char.ofNat (65 + j.1) ∈ upper := by decide +kernel
    have := key ⟨c.toNat - 65, by omega⟩
    rw [show 65 + (c.toNat - 65) = c.toNat by omega] at this
    simpa using this

theorem takeBytes_all : ∀ (n : Nat) (t : Text), (t.map Char.utf8Size).sum ≤ n → takeBytes n t = t
  | _, [], _ => by simp [takeBytes]
  | n, c :: cs, h => by
    simp only [List.map_cons, List.sum_cons] at h
    rw [takeBytes, if_pos (by omega), takeBytes_all _ cs (by omega)]

theorem utf8Size_fold (c : Char) : (fold c).utf8Size = c.utf8Size := by
  by_cases h : c ∈ upper
  · have : ∀ c ∈ upper, (fold c).utf8Size = c.utf8Size := by decide +kernel
    exact this c h
  · rw [(fold_eq c).2 h]

theorem ident_eq {reserved : Text → Bool} {n s : Text} (h : ident reserved n = some s) : s = takeBytes 63 (n.map fold) := by
  cases n with
  | nil => simp [ident] at h
  | cons c cs =>
    simp only [ident] at h
    split at h
    · simpa using h.symm
    · exact absurd h (by simp)

/-! ### theorems -/

/-- **C126**: servers that have started with different schemas do not notice each other: whatever they do, in whatever order,
each catalog is as if the other server were not there. -/
theorem C126_separate {a b : Text} (hne : a ≠ b) (l : Log) (db : Db) (ha : db.level a = 4) (hb : db.level b = 4) :
    catalog (both a b db l) a = catalog (alone a db (mine true l)) a ∧
    catalog (both a b db l) b = catalog (alone b db (mine false l)) b := by
  obtain ⟨h1, h2⟩ := both_mine hne l ha hb
  simp [catalog, h1, h2, both_level, alone_level]

/-- … and what a server sees is the catalog in its schema. -/
theorem C126_view {a : Text} (db : Db) (ha : db.level a = 4) (t : Table) : view db a t = (catalog db a).2 t := by
  rw [view_started ha]
  rfl

/-- **C126, partial**: starting a server creates its catalog and leaves all others alone.  (Missing: the catalog in the schema
`public`, when the server starts for the first time, see `C126_violated_public`.) -/
theorem C126_start_partial {reserved : Text → Bool} {mig : Nat → (Table → List Row) → Table → List Row} {name b : Text}
    {db db' : Db} (hi : ident reserved name = some b) (h : start reserved mig name db = some db') :
    db'.level b = 4 ∧ ∀ a, a ≠ b → a ≠ publicS ∨ 1 ≤ db.level b → catalog db' a = catalog db a := by
  simp only [start, hi, Option.some.injEq] at h
  subst h
  refine ⟨by simp [migrate], ?_⟩
  intro a hab hp
  simp only [catalog, migrate, hab, if_false]
  have hl : (convert b db).level = db.level := run_level _ _ _
  rw [hl]
  congr 1
  funext t
  unfold convert run
  by_cases h1 : 1 ≤ db.level b
  · have : resolve db .tableColumn (path b) = some b := by simp [path, resolve, has, h1]
    simp [this, setRows, hab]
  · have hp' : a ≠ publicS := by
      rcases hp with h | h
      · exact h
      · exact absurd h h1
    by_cases h2 : 1 ≤ db.level publicS
    · have : resolve db .tableColumn (path b) = some publicS := by simp [path, resolve, has, h1, h2]
      simp [this, setRows, hp']
    · have : resolve db .tableColumn (path b) = none := by simp [path, resolve, has, h1, h2]
      simp [this]

/-- **C126**: names that differ other than in case, of up to 63 bytes, are different schemas; the schema is the name in lower
case. -/
theorem C126_names {reserved : Text → Bool} {m n s t : Text} (hm : ident reserved m = some s) (hn : ident reserved n = some t)
    (h63 : (m.map Char.utf8Size).sum ≤ 63 ∧ (n.map Char.utf8Size).sum ≤ 63) :
    s.length = m.length ∧
    (∀ (i : Nat) (c : Char), m[i]? = some c →
      (∀ j : Nat, upper[j]? = some c → ∃ d, s[i]? = some d ∧ lower[j]? = some d) ∧ (c ∉ upper → s[i]? = some c)) ∧
    (s = t ↔ m.map fold = n.map fold) := by
  have size : ∀ x : Text, ((x.map fold).map Char.utf8Size).sum = (x.map Char.utf8Size).sum := by
    intro x
    rw [List.map_map]
    congr 1
    apply List.map_congr_left
    intro c _
    exact utf8Size_fold c
  have e1 : s = m.map fold := by
    rw [ident_eq hm, takeBytes_all _ _ (by rw [size]; exact h63.1)]
  have e2 : t = n.map fold := by
    rw [ident_eq hn, takeBytes_all _ _ (by rw [size]; exact h63.2)]
  subst e1
  subst e2
  refine ⟨by simp, ?_, Iff.rfl⟩
  intro i c hc
  have : (m.map fold)[i]? = some (fold c) := by simp [hc]
  refine ⟨fun j hj => ⟨_, this, (fold_eq c).1 j hj⟩, fun hu => ?_⟩
  rw [this, (fold_eq c).2 hu]

/-- **C126 violated**: names that differ in the case of a letter share a catalog, whatever their letters. -/
theorem C126_violated_case {reserved : Text → Bool} {m n s t : Text} (hm : ident reserved m = some s)
    (hn : ident reserved n = some t) (h : m.map fold = n.map fold) : s = t := by
  rw [ident_eq hm, ident_eq hn, h]

theorem takeBytes_append : ∀ (k : Nat) (p x : Text), (p.map Char.utf8Size).sum = k → takeBytes k (p ++ x) = p
  | _, [], x, h => by
    subst h
    cases x with
    | nil => rfl
    | cons c cs =>
      have : ¬ c.utf8Size ≤ 0 := by
        have := Char.utf8Size_pos c
        omega
      simp [takeBytes, this]
  | k, c :: cs, x, h => by
    simp only [List.map_cons, List.sum_cons] at h
    rw [List.cons_append, takeBytes, if_pos (by omega), takeBytes_append _ cs x (by omega)]

/-- **C126 violated**: so do names that agree in their first 63 bytes. -/
theorem C126_violated_long {reserved : Text → Bool} {p x y s t : Text} (hp : (p.map Char.utf8Size).sum = 63)
    (hm : ident reserved (p ++ x) = some s) (hn : ident reserved (p ++ y) = some t) : s = t := by
  have hp' : ((p.map fold).map Char.utf8Size).sum = 63 := by
    rw [List.map_map, ← hp]
    congr 1
    apply List.map_congr_left
    intro c _
    exact utf8Size_fold c
  rw [ident_eq hm, ident_eq hn, List.map_append, List.map_append, takeBytes_append _ _ _ hp', takeBytes_append _ _ _ hp']

/-- **C126 violated**: the first start of a server with a schema of its own rewrites types in the catalog in `public`. -/
theorem C126_violated_public {reserved : Text → Bool} {mig : Nat → (Table → List Row) → Table → List Row} {name b : Text}
    {db db' : Db} (hi : ident reserved name = some b) (h : start reserved mig name db = some db') (hb : b ≠ publicS)
    (h0 : db.level b = 0) (hp : 1 ≤ db.level publicS) (i : Nat) (n t : String) (nl : Bool)
    (hr : (i, Typ.old n t nl) ∈ db.rows publicS .tableColumn) :
    (i, Typ.field n t nl) ∈ db'.rows publicS .tableColumn := by
  simp only [start, hi, Option.some.injEq] at h
  subst h
  have hpb : ¬ publicS = b := fun e => hb e.symm
  have hres : resolve db .tableColumn (path b) = some publicS := by simp [path, resolve, has, h0, hp]
  simp only [migrate, hpb, if_false, convert, run, hres, setRows, and_self, if_true, view]
  exact List.mem_map.2 ⟨_, hr, rfl⟩

/-- **C126 violated**: a schema whose name needs quotes is refused: the server does not start. -/
theorem C126_violated_refused (reserved : Text → Bool) (mig : Nat → (Table → List Row) → Table → List Row) (p x : Text) (c : Char)
    (hc : isPart c = false) (db : Db) : start reserved mig (p ++ c :: x) db = none := by
  have hs : isStart c = false := by
    simp only [isPart, Bool.or_eq_false_iff] at hc
    exact hc.1.1
  cases p with
  | nil => simp [start, ident, hs]
  | cons d ds => simp [start, ident, hc]

/-- A letter of an identifier by its code: ASCII letters, `_`, and everything that is not ASCII. -/
def Letter (c : Char) : Prop :=
  (65 ≤ c.toNat ∧ c.toNat ≤ 90) ∨ (97 ≤ c.toNat ∧ c.toNat ≤ 122) ∨ c.toNat = 95 ∨ 128 ≤ c.toNat

theorem isStart_iff (c : Char) : isStart c = true ↔ Letter c := by
  have h95 : c = '_' ↔ c.toNat = 95 :=
    ⟨fun h => by rw [h]; rfl, fun h => Char.toNat_inj.1 (by rw [h]; rfl)⟩
  simp only [isStart, Letter, Char.isAlpha, Char.isUpper, Char.isLower, Bool.or_eq_true, Bool.and_eq_true,
    decide_eq_true_eq, beq_iff_eq, h95, ge_iff_le, UInt32.le_iff_toNat_le]
  have : c.val.toNat = c.toNat := rfl
  simp only [this, or_assoc]
  exact Iff.rfl

theorem isPart_iff (c : Char) : isPart c = true ↔ Letter c ∨ (48 ≤ c.toNat ∧ c.toNat ≤ 57) ∨ c.toNat = 36 := by
  have h36 : c = '$' ↔ c.toNat = 36 :=
    ⟨fun h => by rw [h]; rfl, fun h => Char.toNat_inj.1 (by rw [h]; rfl)⟩
  simp only [isPart, Bool.or_eq_true, isStart_iff, Char.isDigit, Bool.and_eq_true, decide_eq_true_eq, beq_iff_eq,
    h36, ge_iff_le, UInt32.le_iff_toNat_le, or_assoc]
  have : c.val.toNat = c.toNat := rfl
  simp only [this]
  exact Iff.rfl

/-- **C126 (which names).**  A server starts exactly if the name of its schema begins with a letter, goes on with letters,
digits and `$`, and is no key word; the schema is then the name in lower case, up to 63 bytes of it. -/
theorem C126_starts_iff (reserved : Text → Bool) (mig : Nat → (Table → List Row) → Table → List Row) (name : Text)
    (db : Db) :
    (start reserved mig name db).isSome = true ↔
      ∃ c cs, name = c :: cs ∧ Letter c ∧
        (∀ d ∈ cs, Letter d ∨ (48 ≤ d.toNat ∧ d.toNat ≤ 57) ∨ d.toNat = 36) ∧
        reserved (name.map fold) = false := by
  have hst : (start reserved mig name db).isSome = (ident reserved name).isSome := by
    unfold start; cases ident reserved name <;> rfl
  rw [hst]
  cases name with
  | nil => simp [ident]
  | cons c cs =>
    have hid : (ident reserved (c :: cs)).isSome =
        (isStart c && cs.all isPart && !reserved ((c :: cs).map fold)) := by
      simp only [ident]
      cases isStart c && cs.all isPart && !reserved ((c :: cs).map fold) <;> rfl
    rw [hid]
    simp only [Bool.and_eq_true, List.all_eq_true, Bool.not_eq_true', isStart_iff, isPart_iff]
    constructor
    · rintro ⟨⟨h1, h2⟩, h3⟩
      exact ⟨c, cs, rfl, h1, h2, h3⟩
    · rintro ⟨c', cs', e, h1, h2, h3⟩
      injection e with e1 e2
      subst e1 e2
      exact ⟨⟨h1, h2⟩, h3⟩

/-- A name with digits is fine, unless it begins with one. -/
example (db : Db) : (start (fun _ => false) (fun _ r => r) "seafowl_2".toList db).isSome = true ∧
    (start (fun _ => false) (fun _ r => r) "2seafowl".toList db).isSome = false := by
  constructor
  · exact (C126_starts_iff _ _ _ _).2 ⟨'s', "eafowl_2".toList, rfl, by unfold Letter; decide,
      by unfold Letter; decide, rfl⟩
  · rfl

/-! ### concrete cases -/

/-- Two catalogs: one in `public`, with one column, and none in `sales`. -/
def exDb : Db where
  level := fun s => if s = publicS then 4 else 0
  rows := fun s t => if s = publicS ∧ t = .tableColumn then [(1, .old "a" "int" true)] else []

example : ident (fun _ => false) "Sales".toList = some "sales".toList := by decide +kernel
example : ident (fun _ => false) "my-catalog".toList = none := by decide +kernel
example : isPart '-' = false := by decide

example : ((start (fun _ => false) (fun _ r => r) "Sales".toList exDb).map
    (fun d => (d.level "sales".toList, d.rows publicS .tableColumn))) = some (4, [(1, .field "a" "int" true)]) := by
  decide +kernel

/-- Both have started, and each creates a database. -/
example : ((start (fun _ => false) (fun _ r => r) "Sales".toList exDb).map
    (fun d => let e := both publicS "sales".toList d [(true, ⟨.database, fun v => (7, .junk "") :: v .database⟩),
        (false, ⟨.database, fun v => (8, .junk "") :: v .database⟩)]
      (e.rows publicS .database, e.rows "sales".toList .database))) = some ([(7, .junk "")], [(8, .junk "")]) := by
  decide +kernel

end Seafowl.PgSchema
