import Verif.Dml.Plan
import Verif.Dml.DmlProps

/-!
# DELETE with a WHERE clause (C89), the kinds of INSERT (C90) and UPDATE … FROM (C91)
-/

namespace Seafowl.Dml

set_option linter.unusedSimpArgs false
set_option linter.unusedSectionVars false
set_option linter.unnecessarySimpa false

variable {κ : Type} [DecidableEq κ]

/-! ### specification -/

/-- An optimizer keeps the meaning of plans. -/
def SoundOpt (opt : Plan κ → Plan κ) : Prop := ∀ (db : Db κ) (p : Plan κ), (opt p).eval db = p.eval db

/-- The input is a filter. -/
def IsFilter (p : Plan κ) : Prop := ∃ c input, p = .filter c input

/-! ### the optimizer rules keep the meaning of plans -/

theorem and3_true (a b : Option Bool) : (and3 a b == some true) = ((a == some true) && (b == some true)) := by
  rcases a with _ | _ | _ <;> rcases b with _ | _ | _ <;> rfl

theorem and3_assoc (a b c : Option Bool) : and3 (and3 a b) c = and3 a (and3 b c) := by
  rcases a with _ | _ | _ <;> rcases b with _ | _ | _ <;> rcases c with _ | _ | _ <;> rfl

theorem conjuncts_true (db : Db κ) (r : Row κ) (c : Cond κ) :
    (c.sem db r == some true) = c.conjuncts.all (fun d => d.sem db r == some true) := by
  induction c with
  | and a b iha ihb => simp only [Cond.sem, and3_true, Cond.conjuncts, List.all_append, iha, ihb]
  | _ => simp [Cond.conjuncts]

theorem eval_semis (db : Db κ) (subs : List (Nat × (Db κ → List κ))) (p : Plan κ) :
    (subs.foldl (fun p cq => Plan.semi p cq.1 cq.2) p).eval db =
      (p.eval db).filter (fun r => subs.all (fun cq => (r[cq.1]?).any (fun v => (cq.2 db).contains v))) := by
  induction subs generalizing p with
  | nil => simp only [List.foldl_nil, List.all_nil]; exact (List.filter_eq_self.2 (by simp)).symm
  | cons cq subs ih =>
    rw [List.foldl_cons, ih]
    simp only [Plan.eval, List.filter_filter, List.all_cons]
    congr 1
    funext r
    rw [Bool.and_comm]

theorem ands_true (db : Db κ) (r : Row κ) (ds : List (Cond κ)) (d : Cond κ) :
    ((ds.foldl Cond.and d).sem db r == some true) = (d :: ds).all (fun d => d.sem db r == some true) := by
  induction ds generalizing d with
  | nil => simp
  | cons e ds ih =>
    rw [List.foldl_cons, ih]
    simp only [List.all_cons, Cond.sem, and3_true, Bool.and_assoc]

theorem conjuncts_split (db : Db κ) (r : Row κ) (l : List (Cond κ)) :
    l.all (fun d => d.sem db r == some true) =
      ((l.filter (fun d => d.subquery?.isNone)).all (fun d => d.sem db r == some true) &&
        (l.filterMap Cond.subquery?).all (fun cq => (r[cq.1]?).any (fun v => (cq.2 db).contains v))) := by
  induction l with
  | nil => rfl
  | cons d l ih =>
    have hq : ∀ (col : Nat) (q : Db κ → List κ), ((Cond.inQuery col q).sem db r == some true) =
        (r[col]?).any (fun v => (q db).contains v) := by
      intro col q
      simp only [Cond.sem]
      cases r[col]? with
      | none => rfl
      | some v => simp
    rw [List.all_cons, ih]
    cases d with
    | inQuery col q =>
      simp only [List.filter_cons, Cond.subquery?, Option.isNone_some, Bool.false_eq_true, if_false, List.filterMap_cons, List.all_cons, hq]
      rw [Bool.and_left_comm]
    | _ => simp [List.filter_cons, Cond.subquery?, List.filterMap_cons, Bool.and_assoc]

theorem decorrelateFilter_eval (db : Db κ) (c : Cond κ) (p : Plan κ) :
    (decorrelateFilter c p).eval db = (p.eval db).filter (fun r => c.sem db r == some true) := by
  have hc : (fun r => c.sem db r == some true) = fun r =>
      ((c.conjuncts.filter (fun d => d.subquery?.isNone)).all (fun d => d.sem db r == some true) &&
        (c.conjuncts.filterMap Cond.subquery?).all (fun cq => (r[cq.1]?).any (fun v => (cq.2 db).contains v))) := by
    funext r; rw [conjuncts_true, conjuncts_split]
  rw [hc]
  unfold decorrelateFilter
  simp only
  split
  · next h => rw [h, eval_semis]; simp only [List.all_nil, Bool.true_and]
  · next d ds h =>
    rw [h]
    simp only [Plan.eval, eval_semis, List.filter_filter, ands_true]

theorem decorrelate_sound : SoundOpt (decorrelate (κ := κ)) := by
  intro db p
  induction p with
  | scan t => rfl
  | empty => rfl
  | filter c input ih => rw [decorrelate, decorrelateFilter_eval, ih, Plan.eval]
  | semi input col q ih => simp only [decorrelate, Plan.eval, ih]

theorem eliminateFilter_sound : SoundOpt (eliminateFilter (κ := κ)) := by
  intro db p
  fun_induction eliminateFilter p with
  | case1 input ih =>
    rw [ih]
    simp only [Plan.eval, Cond.sem]
    exact (List.filter_eq_self.2 (by simp)).symm
  | case2 b input hb =>
    simp only [Plan.eval, Cond.sem]
    symm
    rw [List.filter_eq_nil_iff]
    intro r _
    simp only [beq_iff_eq]
    exact fun h => hb h
  | case3 c input h1 h2 ih => simp only [Plan.eval, ih]
  | case4 input col q ih => simp only [Plan.eval, ih]
  | case5 p h1 h2 => rfl

theorem pushInto_eval (db : Db κ) (c : Cond κ) (p : Plan κ) :
    (pushInto c p).eval db = (p.eval db).filter (fun r => c.sem db r == some true) := by
  induction p with
  | semi input col q ih =>
    simp only [pushInto, Plan.eval, ih, List.filter_filter]
    congr 1
    funext r
    rw [Bool.and_comm]
  | _ => rfl

theorem pushDown_sound : SoundOpt (pushDown (κ := κ)) := by
  intro db p
  induction p with
  | scan t => rfl
  | empty => rfl
  | filter c input ih => rw [pushDown, pushInto_eval, ih, Plan.eval]
  | semi input col q ih => simp only [pushDown, Plan.eval, ih]

/-- The modelled optimizer keeps the meaning of every plan. -/
theorem optimize_sound : SoundOpt (optimize (κ := κ)) := by
  intro db p
  rw [optimize, pushDown_sound, eliminateFilter_sound, decorrelate_sound]

theorem physical_sem (db : Db κ) (c : Cond κ) (p : Pred κ) (h : c.physical = some p) (r : Row κ) : c.sem db r = p r := by
  induction c generalizing p with
  | lit b => simp only [Cond.physical, Option.some.injEq] at h; subst h; rfl
  | test q => simp only [Cond.physical, Option.some.injEq] at h; subst h; rfl
  | inQuery col q => simp [Cond.physical] at h
  | and a b iha ihb =>
    simp only [Cond.physical] at h
    split at h
    · next p1 p2 h1 h2 =>
      simp only [Option.some.injEq] at h
      subst h
      simp only [Cond.sem, iha p1 h1, ihb p2 h2]
    · cases h

/-! ### C89 -/

/-- **C89** (`_partial`: only if the optimizer leaves a filter on the table with a physical predicate, and the predicate
is not NULL on the rows of the files it touches): for every optimizer that keeps the meaning of plans, `DELETE FROM t
WHERE c` removes exactly the rows on which `c` is true. -/
theorem C89_where_partial (opt : Plan κ → Plan κ) (ho : SoundOpt opt) (max : Nat) (hm : 0 < max) (db : Db κ) (t : String)
    (c c' : Cond κ) (p : Pred κ) (s : Snapshot κ) (keep : List Bool) (scan : List (List (Row κ)))
    (hdb : db t = rowsOf s) (hshape : opt (.filter c (.scan t)) = .filter c' (.scan t)) (hphys : c'.physical = some p)
    (hs : (s.map (·.1)).Nodup) (hp : SoundPrune p s keep) (hscan : scan.flatten.Perm (rowsOf (keptFiles s keep)))
    (hnull : ∀ r ∈ rowsOf (keptFiles s keep), p r ≠ none) :
    ∃ k, deleteStmt opt max t (some c) s keep scan = some k ∧
      (rowsAfter s k).Perm ((rowsOf s).filter (fun r => !(c.sem db r == some true))) := by
  obtain ⟨k, h1, h2⟩ := C26_delete_partial max hm p s keep scan hs hp hscan hnull
  refine ⟨k, ?_, ?_⟩
  · simp only [deleteStmt, deletePlan, hshape, planSelection, hphys, Option.map_some, h1]
  · have he : (rowsOf s).filter (fun r => !(p r == some true)) =
        (rowsOf s).filter (fun r => !(c.sem db r == some true)) := by
      have hsem := ho db (.filter c (.scan t))
      rw [hshape] at hsem
      simp only [Plan.eval, hdb] at hsem
      apply List.filter_congr
      intro r hr
      have hiff : (p r == some true) = true ↔ (c.sem db r == some true) = true := by
        have h3 : r ∈ (rowsOf s).filter (fun r => c'.sem db r == some true) ↔
            r ∈ (rowsOf s).filter (fun r => c.sem db r == some true) := by rw [hsem]
        simp only [List.mem_filter, hr, true_and, physical_sem db c' p hphys r] at h3
        exact h3
      cases h4 : (p r == some true) <;> cases h5 : (c.sem db r == some true) <;> simp_all
    rw [← he]
    exact h2

/-- Without a WHERE clause, a DELETE whose plan stays a scan removes all rows. -/
theorem C89_no_where (opt : Plan κ → Plan κ) (max : Nat) (t : String) (s : Snapshot κ) (keep : List Bool)
    (scan : List (List (Row κ))) (h : opt (.scan t) = .scan t) :
    ∃ k, deleteStmt opt max t none s keep scan = some k ∧ rowsAfter s k = [] := by
  obtain ⟨k, h1, h2⟩ := C26_all max s keep scan
  exact ⟨k, by simp only [deleteStmt, deletePlan, h, planSelection, h1], h2⟩

/-- **C89, the other case**: whenever the optimized input is not a filter, DELETE removes every row of the table,
whatever its condition says. -/
theorem C89_truncates (opt : Plan κ → Plan κ) (max : Nat) (t : String) (c : Cond κ) (s : Snapshot κ) (keep : List Bool)
    (scan : List (List (Row κ))) (h : ¬ IsFilter (opt (.filter c (.scan t)))) :
    ∃ k, deleteStmt opt max t (some c) s keep scan = some k ∧ rowsAfter s k = [] := by
  obtain ⟨k, h1, h2⟩ := C26_all max s keep scan
  refine ⟨k, ?_, h2⟩
  simp only [deleteStmt, deletePlan]
  generalize hp : opt (.filter c (.scan t)) = p at h ⊢
  cases p with
  | filter c' input => exact absurd ⟨c', input, rfl⟩ h
  | _ => simpa only [planSelection] using h1

/-- **C89**: a DELETE whose optimized input is a filter that has no physical predicate (subqueries that were left in it)
fails; nothing is removed. -/
theorem C89_refused (opt : Plan κ → Plan κ) (max : Nat) (t : String) (c c' : Cond κ) (input : Plan κ) (s : Snapshot κ)
    (keep : List Bool) (scan : List (List (Row κ))) (h : opt (.filter c (.scan t)) = .filter c' input)
    (hc : c'.physical = none) : deleteStmt opt max t (some c) s keep scan = none := by
  simp [deleteStmt, deletePlan, h, planSelection, hc]

/-- Example: an optimizer that does nothing and a subquery. -/
example : deleteStmt (κ := Option Int) id 2 "t" (some (.and (.lit (some true)) (.inQuery 0 (fun _ => []))))
    exSnap [true, true] [] = none :=
  C89_refused id 2 "t" _ _ (.scan "t") _ _ _ rfl rfl

theorem conjuncts_noSub (c : Cond κ) (p : Pred κ) (h : c.physical = some p) : ∀ d ∈ c.conjuncts, d.subquery? = none := by
  induction c generalizing p with
  | lit b => simp [Cond.conjuncts, Cond.subquery?]
  | test q => simp [Cond.conjuncts, Cond.subquery?]
  | inQuery col q => simp [Cond.physical] at h
  | and a b iha ihb =>
    simp only [Cond.physical] at h
    split at h
    · next p1 p2 h1 h2 =>
      intro d hd
      rw [Cond.conjuncts, List.mem_append] at hd
      exact hd.elim (iha p1 h1 d) (ihb p2 h2 d)
    · cases h

theorem conjuncts_ne_nil (c : Cond κ) : c.conjuncts ≠ [] := by
  induction c with
  | and a b iha ihb => simp [Cond.conjuncts, iha]
  | _ => simp [Cond.conjuncts]

/-- The conjuncts of a condition, put together again. -/
def rebuild (c : Cond κ) : Cond κ :=
  match c.conjuncts with
  | [] => c
  | d :: ds => ds.foldl .and d

theorem ands_sem (db : Db κ) (r : Row κ) (ds : List (Cond κ)) (d : Cond κ) :
    (ds.foldl Cond.and d).sem db r = ds.foldl (fun v e => and3 v (e.sem db r)) (d.sem db r) := by
  induction ds generalizing d with
  | nil => rfl
  | cons e ds ih => rw [List.foldl_cons, ih]; rfl

theorem foldl_and3 (f : Cond κ → Option Bool) (l : List (Cond κ)) (a b : Option Bool) :
    l.foldl (fun v e => and3 v (f e)) (and3 a b) = and3 a (l.foldl (fun v e => and3 v (f e)) b) := by
  induction l generalizing b with
  | nil => rfl
  | cons e l ih => rw [List.foldl_cons, and3_assoc, ih]; rfl

theorem and3_some_true (a : Option Bool) : and3 (some true) a = a := by
  rcases a with _ | _ | _ <;> rfl

theorem conjuncts_sem (db : Db κ) (r : Row κ) (c : Cond κ) :
    c.conjuncts.foldl (fun v e => and3 v (e.sem db r)) (some true) = c.sem db r := by
  induction c with
  | and a b iha ihb =>
    rw [Cond.conjuncts, List.foldl_append, iha]
    have hx : and3 (a.sem db r) (some true) = a.sem db r := by rcases a.sem db r with _ | _ | _ <;> rfl
    rw [← hx, foldl_and3, ihb]
    rfl
  | _ => simp only [Cond.conjuncts, List.foldl_cons, List.foldl_nil, and3_some_true]

theorem rebuild_sem (db : Db κ) (r : Row κ) (c : Cond κ) : (rebuild c).sem db r = c.sem db r := by
  unfold rebuild
  split
  · rfl
  · next d ds h =>
    rw [ands_sem, ← conjuncts_sem db r c, h, List.foldl_cons, and3_some_true]

theorem foldl_and_physical (ds : List (Cond κ)) (d : Cond κ) (hd : ∀ e ∈ d :: ds, ∃ p, e.physical = some p) :
    ∃ p, (ds.foldl Cond.and d).physical = some p := by
  induction ds generalizing d with
  | nil => exact hd d (by simp)
  | cons e ds ih =>
    rw [List.foldl_cons]
    apply ih
    intro x hx
    rcases List.mem_cons.1 hx with rfl | hx
    · obtain ⟨p, hp⟩ := hd d (by simp)
      obtain ⟨q, hq⟩ := hd e (by simp)
      exact ⟨fun r => and3 (p r) (q r), by simp only [Cond.physical, hp, hq]⟩
    · exact hd x (by simp [hx])

theorem conjuncts_physical (c : Cond κ) (p : Pred κ) (h : c.physical = some p) :
    ∀ e ∈ c.conjuncts, ∃ q, e.physical = some q := by
  induction c generalizing p with
  | lit b => simp [Cond.conjuncts, Cond.physical]
  | test q => simp [Cond.conjuncts, Cond.physical]
  | inQuery col q => simp [Cond.physical] at h
  | and a b iha ihb =>
    simp only [Cond.physical] at h
    split at h
    · next p1 p2 h1 h2 =>
      intro e he
      rw [Cond.conjuncts, List.mem_append] at he
      exact he.elim (iha p1 h1 e) (ihb p2 h2 e)
    · cases h

theorem rebuild_physical (c : Cond κ) (p : Pred κ) (h : c.physical = some p) : ∃ q, (rebuild c).physical = some q := by
  unfold rebuild
  split
  · exact ⟨p, h⟩
  · next d ds hc =>
    apply foldl_and_physical
    rw [← hc]
    exact conjuncts_physical c p h

theorem foldl_and_lit (ds : List (Cond κ)) (d : Cond κ) (b : Option Bool) (h : ds.foldl Cond.and d = .lit b) :
    ds = [] ∧ d = .lit b := by
  induction ds generalizing d with
  | nil => exact ⟨rfl, h⟩
  | cons e ds ih =>
    rw [List.foldl_cons] at h
    obtain ⟨_, h2⟩ := ih _ h
    cases h2

theorem conjuncts_single_lit (c : Cond κ) (b : Option Bool) (h : c.conjuncts = [.lit b]) : c = .lit b := by
  cases c with
  | and x y =>
    simp only [Cond.conjuncts] at h
    have := congrArg List.length h
    have hx := List.length_pos_iff.2 (conjuncts_ne_nil x)
    have hy := List.length_pos_iff.2 (conjuncts_ne_nil y)
    simp only [List.length_append, List.length_singleton] at this
    omega
  | _ => simpa [Cond.conjuncts] using h

theorem optimize_simple (t : String) (c : Cond κ) (p : Pred κ) (h : c.physical = some p) (hl : ∀ b, c ≠ .lit b) :
    optimize (.filter c (.scan t)) = .filter (rebuild c) (.scan t) := by
  have h1 : c.conjuncts.filterMap Cond.subquery? = [] := by
    rw [List.filterMap_eq_nil_iff]; exact conjuncts_noSub c p h
  have h2 : c.conjuncts.filter (fun d => d.subquery?.isNone) = c.conjuncts := by
    rw [List.filter_eq_self]
    intro d hd
    rw [conjuncts_noSub c p h d hd]; rfl
  have h3 : decorrelate (.filter c (.scan t)) = .filter (rebuild c) (.scan t) := by
    simp only [decorrelate, decorrelateFilter, h1, h2, List.foldl_nil, rebuild]
    split
    · next he => exact absurd he (conjuncts_ne_nil c)
    · next he => rw [he]
  have h4 : ∀ b, rebuild c ≠ .lit b := by
    intro b hb
    unfold rebuild at hb
    split at hb
    · exact hl b hb
    · next d ds hc =>
      obtain ⟨e1, e2⟩ := foldl_and_lit ds d b hb
      subst e1 e2
      exact hl b (conjuncts_single_lit c b hc)
  have h5 : eliminateFilter (.filter (rebuild c) (.scan t)) = .filter (rebuild c) (.scan t) := by
    unfold eliminateFilter
    split
    · next he => simp only [Plan.filter.injEq] at he; exact absurd he.1 (h4 _)
    · next he => simp only [Plan.filter.injEq] at he; exact absurd he.1 (h4 _)
    · next he => simp only [Plan.filter.injEq] at he; rw [← he.1, ← he.2]; rfl
    · next he => cases he
    · rfl
  rw [optimize, h3, h5]
  rfl

/-- **C89** (`_partial`: conditions without subqueries that are not a bare literal, and never NULL on the files the
statement touches): with the modelled optimizer, `DELETE FROM t WHERE c` removes exactly the rows on which `c` is
true. -/
theorem C89_simple_partial (max : Nat) (hm : 0 < max) (db : Db κ) (t : String) (c : Cond κ) (p : Pred κ) (s : Snapshot κ)
    (keep : List Bool) (scan : List (List (Row κ))) (hdb : db t = rowsOf s) (hphys : c.physical = some p)
    (hl : ∀ b, c ≠ .lit b) (hs : (s.map (·.1)).Nodup) (hp : SoundPrune (c.sem db) s keep)
    (hscan : scan.flatten.Perm (rowsOf (keptFiles s keep))) (hnull : ∀ r ∈ rowsOf (keptFiles s keep), c.sem db r ≠ none) :
    ∃ k, deleteStmt optimize max t (some c) s keep scan = some k ∧
      (rowsAfter s k).Perm ((rowsOf s).filter (fun r => !(c.sem db r == some true))) := by
  obtain ⟨q, hq⟩ := rebuild_physical c p hphys
  have hqs : q = c.sem db := by
    funext r
    rw [← physical_sem db (rebuild c) q hq r, rebuild_sem]
  subst hqs
  exact C89_where_partial optimize optimize_sound max hm db t c (rebuild c) _ s keep scan hdb
    (optimize_simple t c p hphys hl) hq hs hp hscan hnull

/-- Example: `DELETE FROM t WHERE a = 1 AND TRUE`. -/
example : ∃ k, deleteStmt optimize 2 "t" (some (.and (.test (fun r => some (r.head? == some (some 1)))) (.lit (some true))))
      exSnap [true, false] [[[some 1, some 10], [some 2, none], [some 3, some 30]]] = some k ∧
    (rowsAfter exSnap k).Perm [[some 2, none], [some 3, some 30], [some 7, some 70]] := by
  obtain ⟨k, h1, h2⟩ := C89_simple_partial 2 (by omega) (fun _ => rowsOf exSnap) "t"
    (.and (.test (fun r => some (r.head? == some (some 1)))) (.lit (some true))) _ exSnap [true, false]
    [[[some 1, some 10], [some 2, none], [some 3, some 30]]] rfl rfl (by intro b h; cases h) (by decide)
    ⟨rfl, by simp [exSnap, Cond.sem, and3]⟩ (by simp [rowsOf, keptFiles, exSnap])
    (by simp [rowsOf, keptFiles, exSnap, Cond.sem, and3])
  exact ⟨k, h1, h2⟩

/-- **C89 does not hold**: `DELETE FROM t WHERE FALSE` and `DELETE FROM t WHERE NULL` remove every row of every table,
although no row satisfies the condition. -/
theorem C89_violated_false (b : Option Bool) (hb : b ≠ some true) (max : Nat) (db : Db κ) (t : String) (s : Snapshot κ)
    (keep : List Bool) (scan : List (List (Row κ))) :
    (∀ r : Row κ, (Cond.lit b).sem db r ≠ some true) ∧
    ∃ k, deleteStmt optimize max t (some (.lit b)) s keep scan = some k ∧ rowsAfter s k = [] := by
  refine ⟨fun r => hb, C89_truncates optimize max t _ s keep scan ?_⟩
  rintro ⟨c, input, h⟩
  rcases b with _ | _ | _
  · simp [optimize, decorrelate, decorrelateFilter, Cond.conjuncts, Cond.subquery?, eliminateFilter, pushDown] at h
  · simp [optimize, decorrelate, decorrelateFilter, Cond.conjuncts, Cond.subquery?, eliminateFilter, pushDown] at h
  · exact hb rfl

/-- **C89 does not hold** for subqueries: `DELETE FROM t WHERE col IN (SELECT …)` removes every row of every table,
whatever the subquery returns. -/
theorem C89_violated_subquery (col : Nat) (q : Db κ → List κ) (max : Nat) (t : String) (s : Snapshot κ)
    (keep : List Bool) (scan : List (List (Row κ))) :
    ∃ k, deleteStmt optimize max t (some (.inQuery col q)) s keep scan = some k ∧ rowsAfter s k = [] := by
  refine C89_truncates optimize max t _ s keep scan ?_
  rintro ⟨c, input, h⟩
  simp [optimize, decorrelate, decorrelateFilter, Cond.conjuncts, Cond.subquery?, eliminateFilter, pushDown] at h

/-- The same for `DELETE FROM t WHERE p AND col IN (SELECT …)`. -/
theorem C89_violated_and_subquery (p : Pred κ) (col : Nat) (q : Db κ → List κ) (max : Nat) (t : String) (s : Snapshot κ)
    (keep : List Bool) (scan : List (List (Row κ))) :
    ∃ k, deleteStmt optimize max t (some (.and (.test p) (.inQuery col q))) s keep scan = some k ∧ rowsAfter s k = [] := by
  refine C89_truncates optimize max t _ s keep scan ?_
  rintro ⟨c, input, h⟩
  simp [optimize, decorrelate, decorrelateFilter, Cond.conjuncts, Cond.subquery?, eliminateFilter, pushDown, pushInto, List.filterMap_cons] at h

/-- A row that satisfies no part of the condition and is removed: `DELETE FROM t WHERE a IN (SELECT …)` with an empty
subquery. -/
example : ∃ k, deleteStmt optimize 2 "t" (some (.inQuery 0 (fun _ => []))) exSnap [true, false] [] = some k ∧
    [some 7, some 70] ∈ rowsOf exSnap ∧
    (Cond.inQuery 0 (fun _ => [])).sem (fun _ => rowsOf exSnap) [some 7, some 70] ≠ some true ∧
    [some 7, some 70] ∉ rowsAfter exSnap k := by
  obtain ⟨k, h1, h2⟩ := C89_violated_subquery (κ := Option Int) 0 (fun _ => []) 2 "t" exSnap [true, false] []
  exact ⟨k, h1, by decide, by simp [Cond.sem], by rw [h2]; simp⟩

/-! ### C90 -/

/-- What the rows of a table are after an INSERT statement of each kind, for rows that are compared as a whole:
`REPLACE INTO` leaves no second copy of a row that is inserted again. -/
def InsertSpec (op : InsertOp) (old new after : List (Row κ)) : Prop :=
  match op with
  | .append => after.Perm (old ++ new)
  | .overwrite => after.Perm new
  | .replace => after.Perm (old.filter (fun r => !new.contains r) ++ new)

/-- **C90** (`_partial`: only plain INSERT): `INSERT INTO` adds exactly the rows of its source. -/
theorem C90_insert_partial (max : Nat) (hm : 0 < max) (batches : List (List (Row κ))) (s : Snapshot κ) :
    ∃ k, insertStmt .append max batches = some k ∧ InsertSpec .append (rowsOf s) batches.flatten (rowsAfter s k) := by
  obtain ⟨a, ea, ef⟩ := addFiles_spec max hm batches
  refine ⟨{ adds := a, removes := [] }, by simp [insertStmt, insert, ea], ?_⟩
  have : s.filter (fun _ => true) = s := List.filter_eq_self.2 (by simp)
  simp [InsertSpec, rowsAfter, ef, this]

/-- **C90 does not hold** for `INSERT OVERWRITE`: on every table that has rows, the rows that should be gone are still
there. -/
theorem C90_violated_overwrite (max : Nat) (hm : 0 < max) (batches : List (List (Row κ))) (s : Snapshot κ)
    (hs : rowsOf s ≠ []) :
    ∃ k, insertStmt .overwrite max batches = some k ∧
      ¬ InsertSpec .overwrite (rowsOf s) batches.flatten (rowsAfter s k) := by
  obtain ⟨k, h1, h2⟩ := C90_insert_partial max hm batches s
  refine ⟨k, h1, ?_⟩
  intro h
  simp only [InsertSpec] at h h2
  have := (h2.symm.trans h).length_eq
  have hp := List.length_pos_iff.2 hs
  simp only [List.length_append] at this
  omega

/-- **C90 does not hold** for `REPLACE INTO`: a row of the table that is inserted again is there twice. -/
theorem C90_violated_replace (max : Nat) (hm : 0 < max) (batches : List (List (Row κ))) (s : Snapshot κ) (r : Row κ)
    (hr : r ∈ rowsOf s) (hb : r ∈ batches.flatten) :
    ∃ k, insertStmt .replace max batches = some k ∧
      ¬ InsertSpec .replace (rowsOf s) batches.flatten (rowsAfter s k) := by
  obtain ⟨k, h1, h2⟩ := C90_insert_partial max hm batches s
  refine ⟨k, h1, ?_⟩
  intro h
  simp only [InsertSpec] at h h2
  have h3 := (h2.symm.trans h).length_eq
  have h4 : ((rowsOf s).filter (fun r => !batches.flatten.contains r)).length < (rowsOf s).length := by
    rcases Nat.lt_or_ge ((rowsOf s).filter (fun r => !batches.flatten.contains r)).length (rowsOf s).length with h | h
    · exact h
    · exfalso
      have he := List.Sublist.eq_of_length_le (List.filter_sublist (p := fun r => !batches.flatten.contains r)) h
      rw [List.filter_eq_self] at he
      have := he r hr
      rw [Bool.not_eq_true', ← Bool.not_eq_true] at this
      exact this (List.contains_iff_mem.2 hb)
  simp only [List.length_append] at h3
  omega

/-- The hypotheses hold for a table of two files. -/
example : rowsOf exSnap ≠ [] ∧ [some 7, some 70] ∈ rowsOf exSnap ∧
    ([some 7, some 70] : Row (Option Int)) ∈ [[[some 7, some 70]], [[some 8, none]]].flatten := by decide

/-! ### C91 -/

/-- `r'` is `r` with the assignments carried out, their expressions evaluated on `r` and the row `x` of the other
table. -/
def SetToFrom (fields ofields : List String) (assigns : List (String × RExpr κ κ)) (r x r' : Row κ) : Prop :=
  SetTo fields (assigns.map (fun a => (a.1, fun r => a.2.eval fields ofields r x))) r r'

/-- The row `x` of the table after FROM matches `r`. -/
def MatchesRow (fields ofields : List String) (c : Option (RExpr κ Bool)) (r x : Row κ) : Prop :=
  ∀ e, c = some e → e.eval fields ofields r x = some true

/-- The meaning of `UPDATE t SET … FROM s WHERE c`: a row with a matching row in `s` is changed, all others stay.  (The
statement does not say which row of `s` is used if several match, so the rows of `s` must agree.) -/
def UpdateFromSpec (fields ofields : List String) (assigns : List (String × RExpr κ κ)) (c : Option (RExpr κ Bool))
    (from_ old after : List (Row κ)) : Prop :=
  ∃ g : Row κ → Row κ, after.Perm (old.map g) ∧
    ∀ r ∈ old,
      (∀ x ∈ from_, MatchesRow fields ofields c r x → SetToFrom fields ofields assigns r x (g r)) ∧
      ((∀ x ∈ from_, ¬ MatchesRow fields ofields c r x) → g r = r)

theorem refValues_own (fields ofields : List String) (r x : Row κ) (refs : List Ref)
    (h : refs.all (fun x => match x with
      | .own _ => true
      | .other _ => false) = true) :
    refValues fields ofields r x refs = refValues fields [] r [] refs := by
  induction refs with
  | nil => rfl
  | cons y refs ih =>
    rw [List.all_cons, Bool.and_eq_true] at h
    simp only [refValues, ih h.2]
    cases y with
    | own c => rfl
    | other c => simp at h

theorem eval_own {τ : Type} (fields ofields : List String) (e : RExpr κ τ) (r x : Row κ) (h : e.ownOnly = true) :
    e.eval fields ofields r x = e.eval fields [] r [] := by
  rw [RExpr.eval, RExpr.eval, refValues_own fields ofields r x e.refs h]

theorem physicalAssigns_spec (fields : List String) (assigns : List (String × RExpr κ κ)) (as : List (String × SExpr κ))
    (h : physicalAssigns fields assigns = some as) :
    (∀ a ∈ assigns, a.2.ownOnly = true) ∧ as = assigns.map (fun a => (a.1, fun r => a.2.eval fields [] r [])) := by
  induction assigns generalizing as with
  | nil => simp only [physicalAssigns, Option.some.injEq] at h; subst h; simp
  | cons a assigns ih =>
    obtain ⟨f, e⟩ := a
    simp only [physicalAssigns] at h
    split at h
    · next p ps hp hps =>
      simp only [Option.some.injEq] at h
      subst h
      obtain ⟨h1, h2⟩ := ih ps hps
      unfold RExpr.physical at hp
      split at hp
      · next ho =>
        simp only [Option.some.injEq] at hp
        subst hp
        refine ⟨?_, by rw [h2]; rfl⟩
        intro a ha
        rcases List.mem_cons.1 ha with rfl | ha
        · exact ho
        · exact h1 a ha
      · cases hp
    · cases h

theorem perm_map_self (s : Snapshot κ) : (rowsAfter s { adds := [], removes := [] }).Perm ((rowsOf s).map id) := by
  have : s.filter (fun _ => true) = s := List.filter_eq_self.2 (by simp)
  simp [rowsAfter, this]

/-- **C91** (`_partial`: only if the table after FROM has rows and neither the condition nor the assignments refer to
it): an UPDATE with FROM that does not fail changes exactly the matching rows, and as the statement says. -/
theorem C91_update_from_partial (max : Nat) (hm : 0 < max) (fields ofields : List String)
    (assigns : List (String × RExpr κ κ)) (c : Option (RExpr κ Bool)) (from_ : List (Row κ)) (s : Snapshot κ)
    (keep : List Bool) (scan : List (List (Row κ))) (k : Commit κ) (hfrom : from_ ≠ [])
    (hown : ∀ a ∈ assigns, a.2.ownOnly = true) (hcown : ∀ e, c = some e → e.ownOnly = true)
    (hn : fields.Nodup) (ha : (assigns.map (·.1)).Nodup) (hs : (s.map (·.1)).Nodup)
    (hw : ∀ r ∈ rowsOf s, r.length = fields.length)
    (hp : ∀ e, c = some e → SoundPrune (fun r => e.eval fields ofields r []) s keep ∧
      scan.flatten.Perm (rowsOf (keptFiles s keep)))
    (hp' : c = none → scan.flatten.Perm (rowsOf s))
    (h : updateFromStmt max fields assigns c s keep scan = some k) :
    UpdateFromSpec fields ofields assigns c from_ (rowsOf s) (rowsAfter s k) := by
  obtain ⟨x0, hx0⟩ := List.exists_mem_of_ne_nil _ hfrom
  unfold updateFromStmt at h
  split at h
  · cases h
  · next sel hsel =>
    -- the predicate of the plan is the condition
    have hsc : ∀ (r x : Row κ), selects sel r ↔ MatchesRow fields ofields c r x := by
      intro r x
      cases c with
      | none =>
        simp only [updateSelection, Option.some.injEq] at hsel
        subst hsel
        simp [selects, MatchesRow]
      | some e =>
        simp only [updateSelection, RExpr.physical, hcown e rfl, if_true, Option.map_some, Option.some.injEq] at hsel
        subst hsel
        simp only [selects, MatchesRow, Option.some.injEq, forall_eq', eval_own fields ofields e r x (hcown e rfl)]
    split at h
    · next hempty =>
      -- no file is touched: no row satisfies the condition
      simp only [Option.some.injEq] at h
      subst h
      have hnone : ∀ r ∈ rowsOf s, ¬ selects sel r := by
        intro r hr hsr
        cases c with
        | none =>
          simp only [updateSelection, Option.some.injEq] at hsel
          subst hsel
          simp only [updateFiles, List.isEmpty_iff] at hempty
          subst hempty
          simp [rowsOf] at hr
        | some e =>
          have ho := hcown e rfl
          simp only [updateSelection, RExpr.physical, ho, if_true, Option.map_some, Option.some.injEq] at hsel
          subst hsel
          simp only [updateFiles, List.isEmpty_iff] at hempty
          obtain ⟨⟨hlen, hsound⟩, _⟩ := hp e rfl
          simp only [rowsOf, List.mem_flatMap] at hr
          obtain ⟨f, hf, hrf⟩ := hr
          obtain ⟨i, hi, hif⟩ := List.mem_iff_getElem.1 hf
          have hik : i < keep.length := by omega
          have hmem : (f, keep[i]) ∈ s.zip keep := by
            rw [List.mem_iff_getElem]
            exact ⟨i, by simp; omega, by simp [hif]⟩
          have hkf : keep[i] = false := by
            cases hb : keep[i] with
            | false => rfl
            | true =>
              exfalso
              have : f ∈ keptFiles s keep := by
                simp only [keptFiles, List.mem_filterMap]
                exact ⟨_, hmem, by simp [hb]⟩
              rw [hempty] at this
              cases this
          have h1 := hsound _ hmem hkf r hrf
          have h2 := hsr _ rfl
          simp only [eval_own fields ofields e r [] ho] at h1
          exact h1 h2
      refine ⟨id, perm_map_self s, ?_⟩
      intro r hr
      exact ⟨fun x _ hx => absurd ((hsc r x).2 hx) (hnone r hr), fun _ => rfl⟩
    · split at h
      · cases h
      · next as has =>
        obtain ⟨_, has2⟩ := physicalAssigns_spec fields assigns as has
        subst has2
        obtain ⟨g, hg1, hg2⟩ := C25_update_partial max hm fields _ sel s keep scan k hn
          (by rw [List.map_map]; exact ha) hs hw
          (by
            intro p hsp
            cases c with
            | none => simp only [updateSelection, Option.some.injEq] at hsel; subst hsel; cases hsp
            | some e =>
              have ho := hcown e rfl
              simp only [updateSelection, RExpr.physical, ho, if_true, Option.map_some, Option.some.injEq] at hsel
              subst hsel
              simp only [Option.some.injEq] at hsp
              subst hsp
              have := hp e rfl
              simpa only [eval_own fields ofields e _ [] ho] using this)
          (by
            intro hsn
            cases c with
            | none => exact hp' rfl
            | some e =>
              have ho := hcown e rfl
              simp only [updateSelection, RExpr.physical, ho, if_true, Option.map_some, Option.some.injEq] at hsel
              subst hsel
              cases hsn)
          h
        refine ⟨g, hg1, ?_⟩
        intro r hr
        refine ⟨fun x _ hx => ?_, fun hx => (hg2 r hr).2 (fun hsr => hx x0 hx0 ((hsc r x0).1 hsr))⟩
        have := (hg2 r hr).1 ((hsc r x).2 hx)
        unfold SetToFrom
        have he : assigns.map (fun a => (a.1, fun r => a.2.eval fields ofields r x)) =
            assigns.map (fun a => (a.1, fun r => a.2.eval fields [] r [])) := by
          apply List.map_congr_left
          intro a haa
          simp only [Prod.mk.injEq, true_and]
          funext r
          exact eval_own fields ofields a.2 r x (hown a haa)
        rw [he]
        exact this

/-- **C91**: an UPDATE whose condition refers to the table after FROM fails; nothing is changed. -/
theorem C91_other_fails (max : Nat) (fields : List String) (assigns : List (String × RExpr κ κ)) (e : RExpr κ Bool)
    (s : Snapshot κ) (keep : List Bool) (scan : List (List (Row κ))) (col : String) (h : Ref.other col ∈ e.refs) :
    updateFromStmt max fields assigns (some e) s keep scan = none := by
  have : e.ownOnly = false := by
    simp only [RExpr.ownOnly, List.all_eq_false]
    exact ⟨_, h, by simp⟩
  simp [updateFromStmt, updateSelection, RExpr.physical, this]

/-- **C91**: so does one whose assignments refer to it, unless no file is touched. -/
theorem C91_assign_fails (max : Nat) (fields : List String) (assigns : List (String × RExpr κ κ)) (a : String × RExpr κ κ)
    (s : Snapshot κ) (keep : List Bool) (scan : List (List (Row κ))) (col : String) (ha : a ∈ assigns)
    (h : Ref.other col ∈ a.2.refs) (hs : s ≠ []) :
    updateFromStmt max fields assigns none s keep scan = none := by
  have h1 : a.2.ownOnly = false := by
    simp only [RExpr.ownOnly, List.all_eq_false]
    exact ⟨_, h, by simp⟩
  have h2 : physicalAssigns fields assigns = none := by
    cases hp : physicalAssigns fields assigns with
    | none => rfl
    | some as =>
      have := (physicalAssigns_spec fields assigns as hp).1 a ha
      rw [h1] at this
      cases this
  cases s with
  | nil => exact absurd rfl hs
  | cons f s => simp [updateFromStmt, updateSelection, updateFiles, h2]

/-- **C91**: if no file can hold a matching row, an UPDATE whose condition does not refer to the other table changes
nothing, whatever its assignments refer to. -/
theorem C91_untouched (max : Nat) (fields : List String) (assigns : List (String × RExpr κ κ)) (e : RExpr κ Bool)
    (s : Snapshot κ) (keep : List Bool) (scan : List (List (Row κ))) (he : e.ownOnly = true)
    (hk : ∀ b ∈ keep, b = false) :
    updateFromStmt max fields assigns (some e) s keep scan = some { adds := [], removes := [] } := by
  have h0 : keptFiles s keep = [] := by
    rw [keptFiles, List.filterMap_eq_nil_iff]
    rintro ⟨f, b⟩ hfb
    rw [hk b (List.of_mem_zip hfb).2]
    rfl
  simp [updateFromStmt, updateSelection, RExpr.physical, he, updateFiles, h0]

/-- **C91 does not hold**: `UPDATE t SET b = 0 FROM s WHERE a = 7` with an empty table `s` changes a row although no row
of `s` matches it. -/
theorem C91_violated :
    ∃ k, updateFromStmt (κ := Option Int) 2 ["a", "b"] [("b", ⟨[], fun _ => some (some 0)⟩)]
      (some ⟨[.own "a"], fun vs => some (vs == [some 7])⟩) exSnap [false, true] [[[some 7, some 70]]] = some k ∧
    ¬ UpdateFromSpec ["a", "b"] ["c"] [("b", ⟨[], fun _ => some (some 0)⟩)]
      (some ⟨[.own "a"], fun vs => some (vs == [some 7])⟩) [] (rowsOf exSnap) (rowsAfter exSnap k) := by
  refine ⟨{ adds := [[[some 7, some 0]]], removes := [(2, 0)] }, ?_, ?_⟩
  · simp [updateFromStmt, updateSelection, RExpr.physical, RExpr.ownOnly, updateFiles, physicalAssigns, update, exSnap,
      keptFiles, evalBatches, evalRows, evalRow, projectExpressions, caseExpr, planExprs, assigned, colAt, addFiles,
      rechunk, fillAll, fill, RExpr.eval, refValues, Ref.value]
  · rintro ⟨g, h1, h2⟩
    have h3 : (rowsOf exSnap).map g = rowsOf exSnap := by
      conv => rhs; rw [← List.map_id (rowsOf exSnap)]
      apply List.map_congr_left
      intro r hr
      exact (h2 r hr).2 (by simp)
    rw [h3] at h1
    have h4 : [some 7, some 70] ∈ rowsOf exSnap := by decide
    have h5 := (h1.mem_iff).2 h4
    revert h5
    decide

/-- … and so it is for every UPDATE with an empty table after FROM: what the statement means is that nothing changes. -/
theorem C91_empty_exact (fields ofields : List String) (assigns : List (String × RExpr κ κ)) (c : Option (RExpr κ Bool))
    (old after : List (Row κ)) : UpdateFromSpec fields ofields assigns c [] old after ↔ after.Perm old := by
  constructor
  · rintro ⟨g, h1, h2⟩
    have h3 : old.map g = old := by
      conv => rhs; rw [← List.map_id old]
      exact List.map_congr_left (fun r hr => (h2 r hr).2 (by simp))
    rwa [h3] at h1
  · intro h
    exact ⟨id, by simpa using h, fun r _ => ⟨by simp, fun _ => rfl⟩⟩

/-- Whenever such a statement sets a column to a constant and a row that satisfies the condition has another value there,
the row is changed although no row of the other table matches it. -/
theorem C91_violated_always [DecidableEq κ] (max : Nat) (hm : 0 < max) (fields ofields : List String) (i : Nat)
    (col : String) (v : κ) (c : Option (RExpr κ Bool)) (s : Snapshot κ)
    (keep : List Bool) (scan : List (List (Row κ))) (k : Commit κ) (hcol : fields[i]? = some col)
    (hcown : ∀ e, c = some e → e.ownOnly = true) (hn : fields.Nodup) (hs : (s.map (·.1)).Nodup)
    (hw : ∀ r ∈ rowsOf s, r.length = fields.length)
    (hp : ∀ e, c = some e → SoundPrune (fun r => e.eval fields ofields r []) s keep ∧
      scan.flatten.Perm (rowsOf (keptFiles s keep)))
    (hp' : c = none → scan.flatten.Perm (rowsOf s))
    (h : updateFromStmt max fields [(col, ⟨[], fun _ => some v⟩)] c s keep scan = some k)
    (r : Row κ) (hr : r ∈ rowsOf s) (hsel : MatchesRow fields ofields c r []) (hv : r[i]? ≠ some v) :
    ¬ UpdateFromSpec fields ofields [(col, ⟨[], fun _ => some v⟩)] c [] (rowsOf s) (rowsAfter s k) := by
  rw [C91_empty_exact]
  intro hperm
  obtain ⟨g, h1, h2⟩ := C91_update_from_partial max hm fields ofields _ c [[]] s keep scan k (by simp)
    (by simp [RExpr.ownOnly]) hcown hn (by simp) hs hw hp hp' h
  -- how many rows have the value
  have key : ∀ r ∈ rowsOf s, (r[i]? = some v → (g r)[i]? = some v) ∧
      (MatchesRow fields ofields c r [] → (g r)[i]? = some v) := by
    intro r hr
    obtain ⟨h3, h4⟩ := h2 r hr
    have hset : MatchesRow fields ofields c r [] → (g r)[i]? = some v := by
      intro hmr
      have := (((h3 [] (by simp) hmr).2 i col hcol).1 (fun r => RExpr.eval fields ofields ⟨[], fun _ => some v⟩ r [])
        (by simp))
      rw [← this]
      simp [RExpr.eval, refValues]
    refine ⟨?_, hset⟩
    intro hrv
    by_cases hmr : MatchesRow fields ofields c r []
    · exact hset hmr
    · rw [h4 (by simpa using hmr)]; exact hrv
  have hle : ∀ l : List (Row κ), (∀ r ∈ l, (r[i]? = some v → (g r)[i]? = some v)) →
      l.countP (fun r => decide (r[i]? = some v)) ≤ (l.map g).countP (fun r => decide (r[i]? = some v)) := by
    intro l hl
    rw [List.countP_map]
    exact List.countP_mono_left (fun x hx h => by simpa using hl x hx (by simpa using h))
  have hlt : (rowsOf s).countP (fun r => decide (r[i]? = some v)) <
      ((rowsOf s).map g).countP (fun r => decide (r[i]? = some v)) := by
    obtain ⟨a, b, hab⟩ := List.append_of_mem hr
    have ha := hle a (fun x hx => (key x (by rw [hab]; simp [hx])).1)
    have hb := hle b (fun x hx => (key x (by rw [hab]; simp [hx])).1)
    have hg := (key r hr).2 hsel
    rw [hab]
    simp only [List.map_append, List.map_cons, List.countP_append, List.countP_cons, hg, hv, decide_true, decide_false,
      if_true, Bool.false_eq_true, if_false]
    omega
  have := (h1.symm.trans hperm).countP_eq (fun r => decide (r[i]? = some v))
  omega

/-- The hypotheses of `C91_update_from_partial` hold for the same statement with a row in `s`. -/
example : UpdateFromSpec (κ := Option Int) ["a", "b"] ["c"] [("b", ⟨[], fun _ => some (some 0)⟩)]
    (some ⟨[.own "a"], fun vs => some (vs == [some 7])⟩) [[some 1]] (rowsOf exSnap)
    (rowsAfter exSnap { adds := [[[some 7, some 0]]], removes := [(2, 0)] }) := by
  refine C91_update_from_partial 2 (by omega) ["a", "b"] ["c"] _ _ _ exSnap [false, true] [[[some 7, some 70]]] _
    (by simp) (by simp [RExpr.ownOnly]) (by simp [RExpr.ownOnly]) (by decide) (by decide) (by decide) (by decide) ?_ (by simp) ?_
  · intro e he
    simp only [Option.some.injEq] at he
    subst he
    refine ⟨⟨rfl, ?_⟩, by simp [rowsOf, keptFiles, exSnap]⟩
    simp [exSnap, RExpr.eval, refValues, Ref.value, colAt]
  · simp [updateFromStmt, updateSelection, RExpr.physical, RExpr.ownOnly, updateFiles, physicalAssigns, update, exSnap,
      keptFiles, evalBatches, evalRows, evalRow, projectExpressions, caseExpr, planExprs, assigned, colAt, addFiles,
      rechunk, fillAll, fill, RExpr.eval, refValues, Ref.value]

end Seafowl.Dml
