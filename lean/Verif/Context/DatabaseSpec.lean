import Verif.Context.Database

/-!
What a client may expect (C130): a set of named tables with their rows and their history, on which every statement has the
effect it says, or none.  Nothing here refers to the operations of the server.
-/

namespace Seafowl.Database

open Seafowl.TimeTravel (loadVersion)

variable {ρ : Type}

/-! ### specification: a database -/

/-- A table: its name, the contents it had and since when (newest last), up to which version the history may be gone, and
whether it can be used. -/
structure Tab (ρ : Type) where
  name : String
  hist : List (Nat × List ρ)
  kept : Nat
  intact : Bool

abbrev Db (ρ : Type) := List (Tab ρ)

def Db.find (d : Db ρ) (n : String) : Option (Tab ρ) := List.find? (fun a => a.name == n) d

/-- The table exists and can be used. -/
def Db.Usable (d : Db ρ) (n : String) : Prop := ∃ a, d.find n = some a ∧ a.intact = true

/-- Version `v` is the newest at time `t`. -/
def AsOf (hist : List (Nat × List ρ)) (t v : Nat) : Prop :=
  ∃ h, hist[v]? = some h ∧ h.1 ≤ t ∧ ∀ v' h', hist[v']? = some h' → h'.1 ≤ t → v' ≤ v

/-- What a table in a query may give: the rows it has, or had at the time, in any order.  The history may be gone.  (A time
before the creation of the table gives the first version: see C45.) -/
inductive Reads (d : Db ρ) : String × Option Nat → Option (List ρ) → Prop where
  | unusable {n t} : ¬ d.Usable n → Reads d (n, t) none
  | current {n a τ r r'} : d.find n = some a → a.intact = true → a.hist.getLast? = some (τ, r) → r'.Perm r →
      Reads d (n, none) (some r')
  | past {n a t v τ r r'} : d.find n = some a → a.intact = true → AsOf a.hist t v → a.hist[v]? = some (τ, r) → r'.Perm r →
      Reads d (n, some t) (some r')
  | gone {n a t v} : d.find n = some a → a.intact = true → AsOf a.hist t v → v < a.kept → Reads d (n, some t) none
  | early {n a t τ r r'} : d.find n = some a → a.intact = true → (∀ h ∈ a.hist, t < h.1) → a.hist[0]? = some (τ, r) →
      r'.Perm r → Reads d (n, some t) (some r')
  | earlyGone {n a t} : d.find n = some a → a.intact = true → (∀ h ∈ a.hist, t < h.1) → 0 < a.kept → Reads d (n, some t) none

/-- What a query may answer. -/
def Answer (d : Db ρ) (q : Query ρ) : Option (List ρ) → Prop
  | some r => ∃ xs, List.Forall₂ (fun a x => Reads d a (some x)) q.reads xs ∧ r = q.eval xs
  | none => ∃ a ∈ q.reads, Reads d a none

/-- A table is changed. -/
def Db.alter (d : Db ρ) (n : String) (f : Tab ρ → Tab ρ) : Db ρ := List.map (fun a => if a.name = n then f a else a) d

/-- A new version. -/
def Tab.push (a : Tab ρ) (τ : Nat) (r : List ρ) : Tab ρ := { a with hist := a.hist ++ [(τ, r)] }

/-- The current rows. -/
def Db.current (d : Db ρ) (n : String) (r : List ρ) : Prop :=
  ∃ a τ, d.find n = some a ∧ a.intact = true ∧ a.hist.getLast? = some (τ, r)

/-- What a statement that succeeds does, at a time between `t0` and `t1`. -/
inductive Effect (d : Db ρ) (t0 t1 : Nat) : Stmt ρ → Db ρ → Prop where
  | create {n τ} : d.find n = none → t0 ≤ τ → τ < t1 → Effect d t0 t1 (.create n) (d ++ [⟨n, [(τ, [])], 0, true⟩])
  | createAs {n q τ τ' r} : d.find n = none → Answer d q (some r) → t0 ≤ τ → τ < τ' → τ' < t1 →
      Effect d t0 t1 (.createAs n q) (d ++ [⟨n, [(τ, []), (τ', r)], 0, true⟩])
  | insert {n q τ r x} : d.current n r → Answer d q (some x) → t0 ≤ τ → τ < t1 →
      Effect d t0 t1 (.insert n q) (d.alter n (·.push τ (r ++ x)))
  | modify {n p g τ r} : d.current n r → t0 ≤ τ → τ < t1 →
      Effect d t0 t1 (.modify n p g) (d.alter n (·.push τ (r.filterMap fun x => if p x then g x else some x)))
  | truncate {n τ} : d.Usable n → t0 ≤ τ → τ < t1 → Effect d t0 t1 (.truncate n) (d.alter n (·.push τ []))
  | vacuum {n r more} : d.current n r → t0 ≤ t1 → (∀ h ∈ more, t0 ≤ h.1 ∧ h.1 < t1 ∧ h.2 = r) →
      Effect d t0 t1 (.vacuum n) (d.alter n fun a => { a with hist := a.hist ++ more, kept := a.hist.length - 1 })
  | drop {n} : d.find n ≠ none → t0 ≤ t1 → Effect d t0 t1 (.drop n) (d.filter fun a => a.name != n)
  | rename {n m} : d.Usable n → d.find m = none → t0 ≤ t1 →
      Effect d t0 t1 (.rename n m) (d.alter n fun a => { a with name := m })
  | wait {k} : t0 + k = t1 → Effect d t0 t1 (.wait k) d

/-- When a statement cannot be executed. -/
def Refusable (d : Db ρ) : Stmt ρ → Prop
  | .create n => d.find n ≠ none
  | .createAs n q => d.find n ≠ none ∨ Answer d q none
  | .insert n q => ¬ d.Usable n ∨ Answer d q none
  | .modify n _ _ => ¬ d.Usable n
  | .truncate n => ¬ d.Usable n
  | .vacuum n => ¬ d.Usable n
  | .drop n => d.find n = none
  | .rename n m => ¬ d.Usable n ∨ d.find m ≠ none
  | .select q => Answer d q none
  | .wait _ => False

/-- What a statement that fails on the way may leave, other than nothing or its whole effect. -/
inductive Half (d : Db ρ) (t0 t1 : Nat) : Stmt ρ → Db ρ → Prop where
  /-- CREATE TABLE AS: an empty table -/
  | createAs {n q τ} : d.find n = none → t0 ≤ τ → τ < t1 → Half d t0 t1 (.createAs n q) (d ++ [⟨n, [(τ, [])], 0, true⟩])
  /-- DROP TABLE: a table that cannot be used -/
  | drop {n} : d.find n ≠ none → t0 ≤ t1 → Half d t0 t1 (.drop n) (d.alter n fun a => { a with intact := false })

/-- A statement, with (`bad`) or without something going wrong, what the client is told, and the database after it. -/
inductive Step (d : Db ρ) (t0 : Nat) (s : Stmt ρ) (bad : Bool) : Res ρ → Db ρ → Nat → Prop where
  | ok {d' t1} : Effect d t0 t1 s d' → Step d t0 s bad .ok d' t1
  | rows {q r} : s = .select q → Answer d q (some r) → Step d t0 s bad (.rows r) d t0
  | refused {t1} : Refusable d s → t0 ≤ t1 → Step d t0 s bad .refused d t1
  | nothing {t1} : bad = true → t0 ≤ t1 → Step d t0 s bad .failed d t1
  | half {d' t1} : bad = true → Half d t0 t1 s d' → Step d t0 s bad .failed d' t1
  | late {d' t1} : bad = true → Effect d t0 t1 s d' → Step d t0 s bad .failed d' t1

/-- Statements in a row. -/
inductive Steps : Db ρ → Nat → List (Stmt ρ × Fault) → List (Res ρ) → Db ρ → Nat → Prop where
  | nil {d t} : Steps d t [] [] d t
  | cons {d t s f r d' t' rest rs d'' t''} : Step d t s (f != .none) r d' t' → Steps d' t' rest rs d'' t'' →
      Steps d t ((s, f) :: rest) (r :: rs) d'' t''

/-! A database without history and failures. -/

/-- The rows of the tables there are. -/
abbrev Ideal (ρ : Type) := String → Option (List ρ)

def Ideal.answer (i : Ideal ρ) (q : Query ρ) : Option (List ρ) := (q.reads.mapM fun x => i x.1).map q.eval

def Ideal.put (i : Ideal ρ) (n : String) (r : Option (List ρ)) : Ideal ρ := fun m => if m = n then r else i m

def Ideal.exec (i : Ideal ρ) : Stmt ρ → Ideal ρ × Res ρ
  | .create n =>
    match i n with
    | some _ => (i, .refused)
    | none => (i.put n (some []), .ok)
  | .createAs n q =>
    match i n, i.answer q with
    | none, some x => (i.put n (some x), .ok)
    | _, _ => (i, .refused)
  | .insert n q =>
    match i n, i.answer q with
    | some r, some x => (i.put n (some (r ++ x)), .ok)
    | _, _ => (i, .refused)
  | .modify n p g =>
    match i n with
    | some r => (i.put n (some (r.filterMap fun x => if p x then g x else some x)), .ok)
    | none => (i, .refused)
  | .truncate n =>
    match i n with
    | some _ => (i.put n (some []), .ok)
    | none => (i, .refused)
  | .vacuum n =>
    match i n with
    | some _ => (i, .ok)
    | none => (i, .refused)
  | .drop n =>
    match i n with
    | some _ => (i.put n none, .ok)
    | none => (i, .refused)
  | .rename n m =>
    match i n, i m with
    | some r, none => ((i.put n none).put m (some r), .ok)
    | _, _ => (i, .refused)
  | .select q =>
    match i.answer q with
    | some r => (i, .rows r)
    | none => (i, .refused)
  | .wait _ => (i, .ok)

def Ideal.run : Ideal ρ → List (Stmt ρ) → List (Res ρ)
  | _, [] => []
  | i, s :: rest => (i.exec s).2 :: (i.exec s).1.run rest

/-- The same answer, but for the order of rows. -/
inductive Alike : Res ρ → Res ρ → Prop where
  | ok : Alike .ok .ok
  | refused : Alike .refused .refused
  | rows {r r'} : r.Perm r' → Alike (.rows r) (.rows r')

def Query.Now (q : Query ρ) : Prop := ∀ x ∈ q.reads, x.2 = none

/-- A statement without time travel. -/
def Stmt.Now : Stmt ρ → Prop
  | .createAs _ q | .insert _ q | .select q => q.Now
  | _ => True

/-- A statement that does not vacuum, drop or rename the table. -/
def Stmt.Spares (n : String) : Stmt ρ → Prop
  | .vacuum m | .drop m | .rename m _ => m ≠ n
  | _ => True

/-- What is assumed of the distribution over files and of pruning. -/
structure Env.Sound (E : Env ρ) : Prop where
  cut : ∀ rows, (E.cut rows).flatten = rows
  keep : ∀ p rows, E.keep p rows = false → ∀ x ∈ rows, p x = false

end Seafowl.Database
