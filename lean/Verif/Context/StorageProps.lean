import Verif.Context.DatabaseProps

/-!
# What the object store holds (C143)

A user who drops a table, or whose statement fails, expects that nothing stays behind in the object store that no statement
can remove.  The model is that of C130 (`Database.lean`): statements one after the other, any of which may fail.
-/

namespace Seafowl.Database

variable {ρ : Type}

/-! ### specification -/

/-- Something is stored in the directory `u`. -/
def World.Occupied (w : World ρ) (u : Nat) : Prop := w.log u ≠ [] ∨ ∃ p, w.files u p ≠ none

/-- The directory `u` is that of a table. -/
def World.Owned (w : World ρ) (u : Nat) : Prop := ∃ e ∈ w.entries, e.uuid = u

/-- CREATE TABLE or CREATE TABLE AS. -/
def Stmt.Creates : Stmt ρ → Prop
  | .create _ => True
  | .createAs _ _ => True
  | _ => False

/-- No statement fails, and the server refuses no CREATE TABLE. -/
def Tidy (E : Env ρ) (w : World ρ) (sts : List (Stmt ρ × Fault)) : Prop :=
  (∀ s ∈ sts, s.2 = .none) ∧ ∀ x ∈ sts.zip (w.run E sts).2, x.1.1.Creates → x.2 ≠ .refused

/-- A statement that neither drops nor renames the table `n`. -/
def Stmt.Keeps (n : String) : Stmt ρ → Prop
  | .drop m => m ≠ n
  | .rename m _ => m ≠ n
  | _ => True

/-! ### operations -/

/-- The directory an operation works in. -/
def Op.dir : Op ρ → Option Nat
  | .put u _ _ => some u
  | .mk u => some u
  | .commit u _ _ => some u
  | .erase u _ => some u
  | .eraseLog u => some u
  | .enter _ u => some u
  | _ => none

/-- The directory `u` was used before and is not that of a table. -/
structure Stray (w : World ρ) (u : Nat) : Prop where
  past : u < w.uuid
  alone : ∀ e ∈ w.entries, e.uuid ≠ u

theorem apply_uuid (w : World ρ) (o : Op ρ) : w.uuid ≤ (w.apply o).uuid := by
  cases o <;> simp only [World.apply] <;> omega

theorem apply_stray {w : World ρ} {u : Nat} (h : Stray w u) {o : Op ρ} (ho : o.dir ≠ some u) :
    Stray (w.apply o) u ∧ (w.apply o).log u = w.log u ∧ (w.apply o).files u = w.files u := by
  refine ⟨⟨Nat.lt_of_lt_of_le h.past (apply_uuid w o), ?_⟩, ?_, ?_⟩
  · intro e he
    cases o with
    | enter n v =>
      rcases List.mem_append.1 he with he | he
      · exact h.alone e he
      · simp only [List.mem_singleton] at he
        subst he
        simpa [Op.dir] using ho
    | record v =>
      obtain ⟨e', h1, rfl⟩ := List.mem_map.1 he
      have := h.alone e' h1
      split <;> exact this
    | forget n => exact h.alone e (List.mem_filter.1 he).1
    | rename n m =>
      obtain ⟨e', h1, rfl⟩ := List.mem_map.1 he
      have := h.alone e' h1
      split <;> exact this
    | prune n =>
      obtain ⟨e', h1, rfl⟩ := List.mem_map.1 he
      have := h.alone e' h1
      split <;> exact this
    | put _ _ _ => exact h.alone e he
    | mk _ => exact h.alone e he
    | commit _ _ _ => exact h.alone e he
    | erase _ _ => exact h.alone e he
    | eraseLog _ => exact h.alone e he
  · cases o <;> simp only [World.apply, set] <;> rw [if_neg] <;> rintro rfl <;> exact ho rfl
  · cases o <;> simp only [World.apply, set] <;> rw [if_neg] <;> rintro rfl <;> exact ho rfl

theorem applyAll_stray {u : Nat} (ops : List (Op ρ)) : ∀ {w : World ρ}, Stray w u → (∀ o ∈ ops, o.dir ≠ some u) →
    Stray (w.applyAll ops) u ∧ (w.applyAll ops).log u = w.log u ∧ (w.applyAll ops).files u = w.files u := by
  induction ops with
  | nil => intro w h _; exact ⟨h, rfl, rfl⟩
  | cons o ops ih =>
    intro w h ho
    obtain ⟨h1, h2, h3⟩ := apply_stray h (ho o List.mem_cons_self)
    obtain ⟨h4, h5, h6⟩ := ih h1 fun x hx => ho x (List.mem_cons_of_mem _ hx)
    exact ⟨h4, h5.trans h2, h6.trans h3⟩

/-- Whatever goes wrong, some of the operations are performed. -/
theorem carry_ops (w : World ρ) (P : Plan ρ) (f : Fault) : ∃ ops, (w.carry P f).1 = w.applyAll ops ∧ ∀ o ∈ ops, o ∈ P.soft ++ P.hard := by
  have whole : ∃ ops, w.applyAll (P.soft ++ P.hard) = w.applyAll ops ∧ ∀ o ∈ ops, o ∈ P.soft ++ P.hard := ⟨_, rfl, fun _ h => h⟩
  have part : ∀ k, ∃ ops, w.applyAll ((P.soft ++ P.hard).take k) = w.applyAll ops ∧ ∀ o ∈ ops, o ∈ P.soft ++ P.hard :=
    fun k => ⟨_, rfl, fun _ h => List.mem_of_mem_take h⟩
  cases f with
  | none => exact whole
  | error k =>
    simp only [World.carry]
    split
    · refine ⟨_, rfl, fun o ho => ?_⟩
      rcases List.mem_append.1 ho with ho | ho
      · exact List.mem_append_left _ (List.mem_of_mem_take ho)
      · exact List.mem_append_right _ ho
    · split
      · exact part k
      · exact whole
  | crash k =>
    simp only [World.carry]
    split
    · exact part k
    · exact whole

theorem mem_puts {u : Nat} {cs : List (List ρ)} : ∀ {p : Nat} {o : Op ρ}, o ∈ puts u p cs → ∃ q r, o = .put u q r ∧ p ≤ q := by
  induction cs with
  | nil => intro p o h; simp [puts] at h
  | cons c cs ih =>
    intro p o h
    rcases List.mem_cons.1 h with rfl | h
    · exact ⟨p, c, rfl, Nat.le_refl _⟩
    · obtain ⟨q, r, h1, h2⟩ := ih h
      exact ⟨q, r, h1, by omega⟩

theorem le_names {cs : List (List ρ)} : ∀ {p q : Nat}, q ∈ names p cs → p ≤ q := by
  induction cs with
  | nil => intro p q h; simp [names] at h
  | cons c cs ih =>
    intro p q h
    rcases List.mem_cons.1 h with rfl | h
    · exact Nat.le_refl _
    · have := ih h
      omega

theorem find_mem {w : World ρ} {n : String} {e : Entry} (h : w.find n = some e) : e ∈ w.entries ∧ e.name = n := by
  refine ⟨List.mem_of_find?_eq_some h, ?_⟩
  have := List.find?_some h
  simpa using this

theorem st_look_find {w : World ρ} {n : String} {e : Entry} (h : w.look n = some e) : w.find n = some e ∧ w.log e.uuid ≠ [] := by
  unfold World.look at h
  cases hf : w.find n with
  | none => simp [hf] at h
  | some e' =>
    simp only [hf] at h
    split at h
    · simp at h
    · next hl =>
      cases h
      exact ⟨rfl, by simpa using hl⟩

/-- The operations of a statement. -/
theorem plan_cases (E : Env ρ) (w : World ρ) (s : Stmt ρ) {o : Op ρ} (ho : o ∈ (w.plan E s).soft ++ (w.plan E s).hard) :
    (∃ v, o.dir = some v ∧ (v = w.uuid ∨ ∃ n e, w.find n = some e ∧ e.uuid = v)) ∨ o.dir = none := by
  have hst : ∀ (v : Nat) (rows : List ρ), o ∈ store E v w.path rows → o.dir = some v ∨ o.dir = none := by
    intro v rows h
    rcases List.mem_append.1 h with h | h
    · obtain ⟨q, r, rfl, -⟩ := mem_puts h
      exact .inl rfl
    · simp only [List.mem_cons, List.not_mem_nil, or_false] at h
      rcases h with rfl | rfl
      · exact .inl rfl
      · exact .inr rfl
  cases s with
  | create n =>
    simp only [World.plan] at ho
    split at ho <;> simp only [List.nil_append, List.mem_cons, List.not_mem_nil, or_false] at ho
    · subst ho; exact .inl ⟨_, rfl, .inl rfl⟩
    · rcases ho with rfl | rfl <;> exact .inl ⟨_, rfl, .inl rfl⟩
  | createAs n q =>
    simp only [World.plan] at ho
    split at ho
    · simp [Plan.refuse] at ho
    · split at ho
      · simp only [List.nil_append, List.mem_cons, List.not_mem_nil, or_false] at ho
        subst ho; exact .inl ⟨_, rfl, .inl rfl⟩
      · simp only [List.nil_append] at ho
        rcases List.mem_append.1 ho with ho | ho
        · simp only [List.mem_cons, List.not_mem_nil, or_false] at ho
          rcases ho with rfl | rfl <;> exact .inl ⟨_, rfl, .inl rfl⟩
        · rcases hst _ _ ho with h | h
          · exact .inl ⟨_, h, .inl rfl⟩
          · exact .inr h
  | insert n q =>
    simp only [World.plan] at ho
    split at ho
    · next rows e h1 h2 =>
      rcases hst _ _ ho with h | h
      · exact .inl ⟨_, h, .inr ⟨n, e, (st_look_find h2).1, rfl⟩⟩
      · exact .inr h
    · simp [Plan.refuse] at ho
  | modify n p g =>
    simp only [World.plan] at ho
    cases hl : w.look n with
    | none => simp [hl, Plan.refuse] at ho
    | some e =>
      have hf := (st_look_find hl).1
      simp only [hl] at ho
      split at ho
      · simp [Plan.refuse] at ho
      · split at ho
        · simp only [List.nil_append, List.mem_cons, List.not_mem_nil, or_false] at ho
          rcases ho with rfl | rfl
          · exact .inl ⟨_, rfl, .inr ⟨n, e, hf, rfl⟩⟩
          · exact .inr rfl
        · simp only [List.nil_append] at ho
          rcases List.mem_append.1 ho with ho | ho
          · obtain ⟨q, r, rfl, -⟩ := mem_puts ho
            exact .inl ⟨_, rfl, .inr ⟨n, e, hf, rfl⟩⟩
          · simp only [List.mem_cons, List.not_mem_nil, or_false] at ho
            rcases ho with rfl | rfl
            · exact .inl ⟨_, rfl, .inr ⟨n, e, hf, rfl⟩⟩
            · exact .inr rfl
  | truncate n =>
    simp only [World.plan] at ho
    cases hl : w.look n with
    | none => simp [hl, Plan.refuse] at ho
    | some e =>
      have hf := (st_look_find hl).1
      simp only [hl, List.nil_append, List.mem_cons, List.not_mem_nil, or_false] at ho
      subst ho
      exact .inl ⟨_, rfl, .inr ⟨n, e, hf, rfl⟩⟩
  | vacuum n =>
    simp only [World.plan] at ho
    cases hl : w.look n with
    | none => simp [hl, Plan.refuse] at ho
    | some e =>
      have hf := (st_look_find hl).1
      simp only [hl, List.nil_append] at ho
      have hm : o ∈ (if E.mark && !(dead (w.log e.uuid)).isEmpty then [Op.commit (ρ := ρ) e.uuid [] []] else []) →
          o.dir = some e.uuid := by
        intro h
        split at h
        · simp only [List.mem_singleton] at h
          subst h; rfl
        · simp at h
      rcases List.mem_append.1 ho with ho | ho
      · rcases List.mem_append.1 ho with ho | ho
        · rcases List.mem_append.1 ho with ho | ho
          · exact .inl ⟨_, hm ho, .inr ⟨n, e, hf, rfl⟩⟩
          · obtain ⟨p, -, rfl⟩ := List.mem_map.1 ho
            exact .inl ⟨_, rfl, .inr ⟨n, e, hf, rfl⟩⟩
        · exact .inl ⟨_, hm ho, .inr ⟨n, e, hf, rfl⟩⟩
      · simp only [List.mem_singleton] at ho
        subst ho
        exact .inr rfl
  | drop n =>
    simp only [World.plan] at ho
    cases hf : w.find n with
    | none => simp [hf, Plan.refuse] at ho
    | some e =>
      simp only [hf] at ho
      rcases List.mem_append.1 ho with ho | ho
      · rcases List.mem_cons.1 ho with rfl | ho
        · exact .inl ⟨_, rfl, .inr ⟨n, e, hf, rfl⟩⟩
        · obtain ⟨p, -, rfl⟩ := List.mem_map.1 ho
          exact .inl ⟨_, rfl, .inr ⟨n, e, hf, rfl⟩⟩
      · simp only [List.mem_singleton] at ho
        subst ho
        exact .inr rfl
  | rename n m =>
    simp only [World.plan] at ho
    split at ho
    · simp only [List.nil_append, List.mem_singleton] at ho
      subst ho
      exact .inr rfl
    · simp [Plan.refuse] at ho
  | select q =>
    simp only [World.plan] at ho
    split at ho <;> simp [Plan.refuse] at ho
  | wait d => simp [World.plan] at ho

theorem exec_stray (E : Env ρ) {w : World ρ} {u : Nat} (h : Stray w u) (s : Stmt ρ) (f : Fault) :
    Stray (w.exec E s f).1 u ∧ (w.exec E s f).1.log u = w.log u ∧ (w.exec E s f).1.files u = w.files u := by
  by_cases hw : ∃ d, s = .wait d
  · obtain ⟨d, rfl⟩ := hw
    exact ⟨⟨h.past, h.alone⟩, rfl, rfl⟩
  · have he : w.exec E s f = w.carry (w.plan E s) f := by
      cases s <;> first | rfl | exact absurd ⟨_, rfl⟩ hw
    rw [he]
    obtain ⟨ops, h1, h2⟩ := carry_ops w (w.plan E s) f
    rw [h1]
    refine applyAll_stray ops h fun o ho hd => ?_
    rcases plan_cases E w s (h2 o ho) with ⟨v, h3, h4⟩ | h3
    · rw [h3] at hd
      cases hd
      rcases h4 with rfl | ⟨n, e, h5, h6⟩
      · exact Nat.lt_irrefl _ h.past
      · exact h.alone e (find_mem h5).1 h6
    · rw [h3] at hd
      cases hd

theorem run_stray (E : Env ρ) {u : Nat} (sts : List (Stmt ρ × Fault)) : ∀ {w : World ρ}, Stray w u →
    Stray (w.run E sts).1 u ∧ (w.run E sts).1.log u = w.log u ∧ (w.run E sts).1.files u = w.files u := by
  induction sts with
  | nil => intro w h; exact ⟨h, rfl, rfl⟩
  | cons x sts ih =>
    intro w h
    obtain ⟨h1, h2, h3⟩ := exec_stray E h x.1 x.2
    obtain ⟨h4, h5, h6⟩ := ih h1
    exact ⟨h4, h5.trans h2, h6.trans h3⟩

/-! ### every file has been given its name -/

def Bounded (w : World ρ) : Prop := ∀ u p, w.files u p ≠ none → p < w.path

theorem apply_bounded {w : World ρ} (h : Bounded w) (o : Op ρ) : Bounded (w.apply o) := by
  intro u p hp
  cases o with
  | put v q r =>
    simp only [World.apply, set] at hp ⊢
    split at hp
    · simp only [set] at hp
      split at hp
      · omega
      · have := h _ p hp
        omega
    · have := h u p hp
      omega
  | erase v q =>
    simp only [World.apply, set] at hp ⊢
    split at hp
    · simp only [set] at hp
      split at hp
      · exact absurd rfl hp
      · exact h _ p hp
    · exact h u p hp
  | mk _ => exact h u p hp
  | commit _ _ _ => exact h u p hp
  | enter _ _ => exact h u p hp
  | record _ => exact h u p hp
  | eraseLog _ => exact h u p hp
  | forget _ => exact h u p hp
  | rename _ _ => exact h u p hp
  | prune _ => exact h u p hp

theorem applyAll_bounded (ops : List (Op ρ)) : ∀ {w : World ρ}, Bounded w → Bounded (w.applyAll ops) := by
  induction ops with
  | nil => intro w h; exact h
  | cons o ops ih => intro w h; exact ih (apply_bounded h o)

theorem exec_carry (E : Env ρ) (w : World ρ) (s : Stmt ρ) (f : Fault) :
    (∃ d, s = .wait d ∧ (w.exec E s f).1 = { w with now := w.now + d }) ∨ w.exec E s f = w.carry (w.plan E s) f := by
  cases s with
  | wait d => exact .inl ⟨d, rfl, rfl⟩
  | _ => exact .inr rfl

theorem exec_bounded (E : Env ρ) {w : World ρ} (h : Bounded w) (s : Stmt ρ) (f : Fault) : Bounded (w.exec E s f).1 := by
  rcases exec_carry E w s f with ⟨d, rfl, he⟩ | he
  · rw [he]; exact h
  · rw [he]
    obtain ⟨ops, h1, -⟩ := carry_ops w (w.plan E s) f
    rw [h1]
    exact applyAll_bounded ops h

theorem run_bounded (E : Env ρ) (sts : List (Stmt ρ × Fault)) : ∀ {w : World ρ}, Bounded w → Bounded (w.run E sts).1 := by
  induction sts with
  | nil => intro w h; exact h
  | cons x sts ih => intro w h; exact ih (exec_bounded E h x.1 x.2)

theorem bounded_empty : Bounded (World.empty : World ρ) := fun _ _ h => absurd rfl h

/-! ### only what was added is removed -/

/-- Each entry of a log removes files that entries of it added. -/
def Paired (w : World ρ) : Prop := ∀ u, ∀ c ∈ w.log u, ∀ p ∈ c.removes, ∃ c' ∈ w.log u, p ∈ c'.adds

theorem apply_paired {w : World ρ} (h : Paired w) {o : Op ρ}
    (ho : ∀ u a r, o = .commit u a r → ∀ p ∈ r, ∃ c ∈ w.log u, p ∈ c.adds) : Paired (w.apply o) := by
  intro u c hc p hp
  cases o with
  | mk v =>
    simp only [World.apply, set] at hc ⊢
    split at hc
    · simp only [List.mem_singleton] at hc
      subst hc
      simp at hp
    · next hu =>
      rw [if_neg hu]
      exact h u c hc p hp
  | commit v a r =>
    simp only [World.apply, set] at hc ⊢
    split at hc
    · next hu =>
      rw [if_pos hu]
      subst hu
      rcases List.mem_append.1 hc with hc | hc
      · obtain ⟨c', h1, h2⟩ := h _ c hc p hp
        exact ⟨c', List.mem_append_left _ h1, h2⟩
      · simp only [List.mem_singleton] at hc
        subst hc
        obtain ⟨c', h1, h2⟩ := ho _ _ _ rfl p hp
        exact ⟨c', List.mem_append_left _ h1, h2⟩
    · next hu =>
      rw [if_neg hu]
      exact h u c hc p hp
  | eraseLog v =>
    simp only [World.apply, set] at hc ⊢
    split at hc
    · simp at hc
    · next hu =>
      rw [if_neg hu]
      exact h u c hc p hp
  | put _ _ _ => exact h u c hc p hp
  | enter _ _ => exact h u c hc p hp
  | record _ => exact h u c hc p hp
  | erase _ _ => exact h u c hc p hp
  | forget _ => exact h u c hc p hp
  | rename _ _ => exact h u c hc p hp
  | prune _ => exact h u c hc p hp

theorem applyAll_paired (ops : List (Op ρ)) : ∀ {w : World ρ}, Paired w →
    (∀ o ∈ ops, ∀ u a r, o = .commit u a r → r = []) → Paired (w.applyAll ops) := by
  induction ops with
  | nil => intro w h _; exact h
  | cons o ops ih =>
    intro w h ho
    refine ih (apply_paired h ?_) fun x hx => ho x (List.mem_cons_of_mem _ hx)
    intro u a r he p hp
    rw [ho o List.mem_cons_self u a r he] at hp
    simp at hp

/-- Uploads, and one entry that removes files of the newest version. -/
theorem applyAll_paired_one {w : World ρ} (h : Paired w) {u : Nat} (cs : List (List ρ)) (a r : List Nat) (post : List (Op ρ))
    (hr : ∀ p ∈ r, p ∈ live (w.log u)) (hpost : ∀ o ∈ post, ∀ u a r, o ≠ .commit u a r) (k : Nat) :
    Paired (w.applyAll ((puts u w.path cs ++ .commit u a r :: post).take k)) := by
  have hputs : ∀ k, Paired (w.applyAll ((puts u w.path cs).take k)) := by
    intro k
    refine applyAll_paired _ h fun o ho v a r he => ?_
    obtain ⟨q, x, rfl, -⟩ := mem_puts (List.mem_of_mem_take ho)
    cases he
  rw [List.take_append, applyAll_append]
  generalize k - (puts u w.path cs).length = j
  cases j with
  | zero => exact hputs k
  | succ j =>
    have hlog : (w.applyAll ((puts u w.path cs).take k)).log = w.log := by
      rw [puts_take]
      exact (puts_spec u (cs.take k) w).log
    refine applyAll_paired (post.take j) (apply_paired (hputs k) ?_) fun o ho v a r he => absurd he (hpost o (List.mem_of_mem_take ho) v a r)
    intro v a' r' he p hp
    cases he
    rw [hlog]
    exact mem_live (hr p hp)

/-- A plan without soft operations. -/
theorem carry_take (w : World ρ) (ops : List (Op ρ)) (res : Res ρ) (f : Fault) :
    ∃ k, (w.carry ⟨[], ops, res⟩ f).1 = w.applyAll (ops.take k) := by
  rcases carry_hard w ops res f with h | ⟨-, k, -, h⟩
  · exact ⟨ops.length, by rw [h, List.take_length]⟩
  · exact ⟨k, by rw [h]⟩

theorem exec_paired (E : Env ρ) {w : World ρ} (h : Paired w) (s : Stmt ρ) (f : Fault) : Paired (w.exec E s f).1 := by
  rcases exec_carry E w s f with ⟨d, rfl, he⟩ | he
  · rw [he]; exact h
  rw [he]
  by_cases hs : ∀ o ∈ (w.plan E s).soft ++ (w.plan E s).hard, ∀ u a r, o = .commit u a r → r = []
  · obtain ⟨ops, h1, h2⟩ := carry_ops w (w.plan E s) f
    rw [h1]
    exact applyAll_paired ops h fun o ho => hs o (h2 o ho)
  · have hst : ∀ (v p : Nat) (rows : List ρ), ∀ o ∈ store E v p rows, ∀ u a r, o = .commit u a r → r = [] := by
      intro v p rows o ho u a r hc
      subst hc
      rcases List.mem_append.1 ho with ho | ho
      · obtain ⟨q, r, h1, -⟩ := mem_puts ho
        cases h1
      · simp only [List.mem_cons, List.not_mem_nil, or_false, reduceCtorEq] at ho
        cases ho
        rfl
    cases s with
    | modify n p g =>
      clear hs
      simp only [World.plan]
      cases hl : w.look n with
      | none => dsimp only; rw [carry_refuse]; exact h
      | some e =>
        dsimp only
        split
        · rw [carry_refuse]; exact h
        · split
          · obtain ⟨k, hk⟩ := carry_take w [.commit e.uuid [] [], .record e.uuid] .ok f
            rw [hk]
            refine applyAll_paired _ h fun o ho u a r hc => ?_
            have := List.mem_of_mem_take ho
            subst hc
            simp only [List.mem_cons, List.not_mem_nil, or_false, reduceCtorEq] at this
            cases this
            rfl
          · next rows _ _ =>
            obtain ⟨k, hk⟩ := carry_take w (puts e.uuid w.path (E.cut (rows.filterMap (change p g))) ++
              [.commit e.uuid (names w.path (E.cut (rows.filterMap (change p g))))
                (touched E (w.files e.uuid) p (live (w.log e.uuid))), .record e.uuid]) .ok f
            rw [hk]
            refine applyAll_paired_one h _ _ _ _ (fun p hp => (List.mem_filter.1 hp).1) ?_ k
            intro o ho u a r hc
            subst hc
            simp at ho
    | truncate n =>
      clear hs
      simp only [World.plan]
      cases hl : w.look n with
      | none => dsimp only; rw [carry_refuse]; exact h
      | some e =>
        dsimp only
        obtain ⟨k, hk⟩ := carry_take w [.commit e.uuid [] (live (w.log e.uuid))] .ok f
        rw [hk]
        exact applyAll_paired_one h [] [] (live (w.log e.uuid)) [] (fun p hp => hp) (by simp) k
    | create n =>
      refine absurd (fun o ho u a r hc => ?_) hs
      subst hc
      simp only [World.plan] at ho
      split at ho <;> simp at ho
    | createAs n q =>
      refine absurd (fun o ho u a r hc => ?_) hs
      simp only [World.plan] at ho
      split at ho
      · simp [Plan.refuse] at ho
      · split at ho
        · subst hc
          simp at ho
        · rcases List.mem_append.1 ho with ho | ho
          · simp at ho
          · rcases List.mem_append.1 ho with ho | ho
            · subst hc
              simp at ho
            · exact hst _ _ _ o ho u a r hc
    | insert n q =>
      refine absurd (fun o ho u a r hc => ?_) hs
      simp only [World.plan] at ho
      split at ho
      · exact hst _ _ _ o ho u a r hc
      · simp [Plan.refuse] at ho
    | vacuum n =>
      refine absurd (fun o ho u a r hc => ?_) hs
      subst hc
      simp only [World.plan] at ho
      cases hl : w.look n with
      | none => simp [hl, Plan.refuse] at ho
      | some e =>
        simp only [hl] at ho
        split at ho <;> simp at ho
        exact ho.2.2
    | drop n =>
      refine absurd (fun o ho u a r hc => ?_) hs
      subst hc
      simp only [World.plan] at ho
      split at ho <;> simp [Plan.refuse] at ho
    | rename n m =>
      refine absurd (fun o ho u a r hc => ?_) hs
      subst hc
      simp only [World.plan] at ho
      split at ho <;> simp [Plan.refuse] at ho
    | select q =>
      refine absurd (fun o ho u a r hc => ?_) hs
      subst hc
      simp only [World.plan] at ho
      split at ho <;> simp [Plan.refuse] at ho
    | wait d =>
      refine absurd (fun o ho u a r hc => ?_) hs
      simp [World.plan] at ho

theorem run_paired (E : Env ρ) (sts : List (Stmt ρ × Fault)) : ∀ {w : World ρ}, Paired w → Paired (w.run E sts).1 := by
  induction sts with
  | nil => intro w h; exact h
  | cons x sts ih => intro w h; exact ih (exec_paired E h x.1 x.2)

theorem paired_empty : Paired (World.empty : World ρ) := fun _ _ h => by simp [World.empty] at h

/-! ### files that no entry of the log names -/

structure Lost (w : World ρ) (u p : Nat) (r : List ρ) : Prop where
  past : p < w.path
  here : w.files u p = some r
  unnamed : ∀ c ∈ w.log u, p ∉ c.adds ∧ p ∉ c.removes

/-- Operations that do not concern such a file. -/
def Safe (u p : Nat) : Op ρ → Prop
  | .put v q _ => v ≠ u ∨ q ≠ p
  | .commit v a r => v = u → p ∉ a ∧ p ∉ r
  | .erase v q => v ≠ u ∨ q ≠ p
  | _ => True

theorem apply_lost {w : World ρ} {u p : Nat} {r : List ρ} (h : Lost w u p r) {o : Op ρ} (ho : Safe u p o) :
    Lost (w.apply o) u p r := by
  cases o with
  | put v q x =>
    refine ⟨?_, ?_, h.unnamed⟩
    · have := h.past
      simp only [World.apply]
      omega
    · simp only [World.apply, set]
      split
      · next hu =>
        subst hu
        simp only [set]
        rw [if_neg]
        · exact h.here
        · rintro rfl
          rcases ho with ho | ho <;> exact ho rfl
      · exact h.here
  | mk v =>
    refine ⟨h.past, h.here, fun c hc => ?_⟩
    simp only [World.apply, set] at hc
    split at hc
    · simp only [List.mem_singleton] at hc
      subst hc
      simp
    · exact h.unnamed c hc
  | commit v a x =>
    refine ⟨h.past, h.here, fun c hc => ?_⟩
    simp only [World.apply, set] at hc
    split at hc
    · next hu =>
      rcases List.mem_append.1 hc with hc | hc
      · exact h.unnamed c (hu ▸ hc)
      · simp only [List.mem_singleton] at hc
        subst hc
        exact ho hu.symm
    · exact h.unnamed c hc
  | erase v q =>
    refine ⟨h.past, ?_, h.unnamed⟩
    simp only [World.apply, set]
    split
    · next hu =>
      subst hu
      simp only [set]
      rw [if_neg]
      · exact h.here
      · rintro rfl
        rcases ho with ho | ho <;> exact ho rfl
    · exact h.here
  | eraseLog v =>
    refine ⟨h.past, h.here, fun c hc => ?_⟩
    simp only [World.apply, set] at hc
    split at hc
    · simp at hc
    · exact h.unnamed c hc
  | enter _ _ => exact ⟨h.past, h.here, h.unnamed⟩
  | record _ => exact ⟨h.past, h.here, h.unnamed⟩
  | forget _ => exact ⟨h.past, h.here, h.unnamed⟩
  | rename _ _ => exact ⟨h.past, h.here, h.unnamed⟩
  | prune _ => exact ⟨h.past, h.here, h.unnamed⟩

theorem applyAll_lost {u p : Nat} {r : List ρ} (ops : List (Op ρ)) : ∀ {w : World ρ}, Lost w u p r → (∀ o ∈ ops, Safe u p o) →
    Lost (w.applyAll ops) u p r := by
  induction ops with
  | nil => intro w h _; exact h
  | cons o ops ih =>
    intro w h ho
    exact ih (apply_lost h (ho o List.mem_cons_self)) fun x hx => ho x (List.mem_cons_of_mem _ hx)

/-- No statement but DROP concerns it. -/
theorem plan_safe (E : Env ρ) {w : World ρ} {u p : Nat} {r : List ρ} (h : Lost w u p r) (s : Stmt ρ)
    (hs : ∀ n e, s = .drop n → w.find n = some e → e.uuid ≠ u) : ∀ o ∈ (w.plan E s).soft ++ (w.plan E s).hard, Safe u p o := by
  have hputs : ∀ (v : Nat) (cs : List (List ρ)), ∀ o ∈ puts v w.path cs, Safe u p o := by
    intro v cs o ho
    obtain ⟨q, x, rfl, hq⟩ := mem_puts ho
    have := h.past
    exact .inr (by omega)
  have hnames : ∀ cs : List (List ρ), p ∉ names w.path cs := by
    intro cs hp
    have := le_names hp
    have := h.past
    omega
  have hlive : ∀ v, v = u → p ∉ live (w.log v) := by
    rintro v rfl hp
    obtain ⟨c, h1, h2⟩ := mem_live hp
    exact (h.unnamed c h1).1 h2
  have hst : ∀ (v : Nat) (rows : List ρ), ∀ o ∈ store E v w.path rows, Safe u p o := by
    intro v rows o ho
    rcases List.mem_append.1 ho with ho | ho
    · exact hputs v _ o ho
    · simp only [List.mem_cons, List.not_mem_nil, or_false] at ho
      rcases ho with rfl | rfl
      · exact fun _ => ⟨hnames _, by simp⟩
      · trivial
  intro o ho
  cases s with
  | create n =>
    simp only [World.plan] at ho
    split at ho <;> simp only [List.nil_append, List.mem_cons, List.not_mem_nil, or_false] at ho
    · subst ho; trivial
    · rcases ho with rfl | rfl <;> trivial
  | createAs n q =>
    simp only [World.plan] at ho
    split at ho
    · simp [Plan.refuse] at ho
    · split at ho
      · simp only [List.nil_append, List.mem_cons, List.not_mem_nil, or_false] at ho
        subst ho; trivial
      · simp only [List.nil_append] at ho
        rcases List.mem_append.1 ho with ho | ho
        · simp only [List.mem_cons, List.not_mem_nil, or_false] at ho
          rcases ho with rfl | rfl <;> trivial
        · exact hst _ _ o ho
  | insert n q =>
    simp only [World.plan] at ho
    split at ho
    · exact hst _ _ o ho
    · simp [Plan.refuse] at ho
  | modify n c g =>
    simp only [World.plan] at ho
    cases hl : w.look n with
    | none => simp [hl, Plan.refuse] at ho
    | some e =>
      simp only [hl] at ho
      split at ho
      · simp [Plan.refuse] at ho
      · split at ho
        · simp only [List.nil_append, List.mem_cons, List.not_mem_nil, or_false] at ho
          rcases ho with rfl | rfl
          · exact fun _ => ⟨by simp, by simp⟩
          · trivial
        · simp only [List.nil_append] at ho
          rcases List.mem_append.1 ho with ho | ho
          · exact hputs _ _ o ho
          · simp only [List.mem_cons, List.not_mem_nil, or_false] at ho
            rcases ho with rfl | rfl
            · exact fun hv => ⟨hnames _, fun hm => hlive _ hv (List.mem_filter.1 hm).1⟩
            · trivial
  | truncate n =>
    simp only [World.plan] at ho
    cases hl : w.look n with
    | none => simp [hl, Plan.refuse] at ho
    | some e =>
      simp only [hl, List.nil_append, List.mem_cons, List.not_mem_nil, or_false] at ho
      subst ho
      exact fun hv => ⟨by simp, hlive _ hv⟩
  | vacuum n =>
    simp only [World.plan] at ho
    cases hl : w.look n with
    | none => simp [hl, Plan.refuse] at ho
    | some e =>
      simp only [hl, List.nil_append] at ho
      have hm : o ∈ (if E.mark && !(dead (w.log e.uuid)).isEmpty then [Op.commit (ρ := ρ) e.uuid [] []] else []) →
          Safe u p o := by
        intro h
        split at h
        · simp only [List.mem_singleton] at h
          subst h
          exact fun _ => ⟨by simp, by simp⟩
        · simp at h
      rcases List.mem_append.1 ho with ho | ho
      · rcases List.mem_append.1 ho with ho | ho
        · rcases List.mem_append.1 ho with ho | ho
          · exact hm ho
          · obtain ⟨q, hq, rfl⟩ := List.mem_map.1 ho
            by_cases hu : e.uuid = u
            · right
              rintro rfl
              obtain ⟨c, h1, h2⟩ := List.mem_flatMap.1 (List.mem_filter.1 hq).1
              exact (h.unnamed c (hu ▸ h1)).2 h2
            · exact .inl hu
        · exact hm ho
      · simp only [List.mem_singleton] at ho
        subst ho
        trivial
  | drop n =>
    simp only [World.plan] at ho
    cases hf : w.find n with
    | none => simp [hf, Plan.refuse] at ho
    | some e =>
      simp only [hf] at ho
      rcases List.mem_append.1 ho with ho | ho
      · rcases List.mem_cons.1 ho with rfl | ho
        · trivial
        · obtain ⟨q, -, rfl⟩ := List.mem_map.1 ho
          exact .inl (hs n e rfl hf)
      · simp only [List.mem_singleton] at ho
        subst ho
        trivial
  | rename n m =>
    simp only [World.plan] at ho
    split at ho
    · simp only [List.nil_append, List.mem_singleton] at ho
      subst ho
      trivial
    · simp [Plan.refuse] at ho
  | select q =>
    simp only [World.plan] at ho
    split at ho <;> simp [Plan.refuse] at ho
  | wait d => simp [World.plan] at ho

/-- The table `n` has the directory `u` and keeps it. -/
theorem apply_key {w : World ρ} {n : String} {u : Nat} (h : (n, u) ∈ w.keys) {o : Op ρ} (h1 : o ≠ .forget n)
    (h2 : ∀ m, o ≠ .rename n m) : (n, u) ∈ (w.apply o).keys := by
  obtain ⟨e, he, hk⟩ := List.mem_map.1 h
  cases hk
  cases o with
  | enter m v => exact List.mem_map.2 ⟨e, List.mem_append_left _ he, rfl⟩
  | record v =>
    refine List.mem_map.2 ⟨_, List.mem_map.2 ⟨e, he, rfl⟩, ?_⟩
    split <;> rfl
  | forget m =>
    refine List.mem_map.2 ⟨e, List.mem_filter.2 ⟨he, ?_⟩, rfl⟩
    have : m ≠ e.name := by
      rintro rfl
      exact h1 rfl
    simpa using this.symm
  | rename m m' =>
    refine List.mem_map.2 ⟨_, List.mem_map.2 ⟨e, he, rfl⟩, ?_⟩
    have : m ≠ e.name := by
      rintro rfl
      exact h2 _ rfl
    rw [if_neg (by simpa using this.symm)]
  | prune m =>
    refine List.mem_map.2 ⟨_, List.mem_map.2 ⟨e, he, rfl⟩, ?_⟩
    split <;> rfl
  | put _ _ _ => exact h
  | mk _ => exact h
  | commit _ _ _ => exact h
  | erase _ _ => exact h
  | eraseLog _ => exact h

theorem applyAll_key {n : String} {u : Nat} (ops : List (Op ρ)) : ∀ {w : World ρ}, (n, u) ∈ w.keys → (∀ o ∈ ops, o ≠ .forget n) →
    (∀ o ∈ ops, ∀ m, o ≠ .rename n m) → (n, u) ∈ (w.applyAll ops).keys := by
  induction ops with
  | nil => intro w h _ _; exact h
  | cons o ops ih =>
    intro w h h1 h2
    exact ih (apply_key h (h1 o List.mem_cons_self) (h2 o List.mem_cons_self)) (fun x hx => h1 x (List.mem_cons_of_mem _ hx))
      fun x hx => h2 x (List.mem_cons_of_mem _ hx)

theorem plan_keeps (E : Env ρ) (w : World ρ) {n : String} {s : Stmt ρ} (hs : s.Keeps n) :
    ∀ o ∈ (w.plan E s).soft ++ (w.plan E s).hard, o ≠ .forget n ∧ ∀ m, o ≠ .rename n m := by
  intro o ho
  have hst : ∀ (v q : Nat) (rows : List ρ), o ∈ store E v q rows → o ≠ .forget n ∧ ∀ m, o ≠ .rename n m := by
    intro v q rows h
    rcases List.mem_append.1 h with h | h
    · obtain ⟨q, r, rfl, -⟩ := mem_puts h
      simp
    · simp only [List.mem_cons, List.not_mem_nil, or_false] at h
      rcases h with rfl | rfl <;> simp
  refine ⟨?_, ?_⟩
  · rintro rfl
    cases s with
    | create m =>
      simp only [World.plan] at ho
      split at ho <;> simp at ho
    | createAs m q =>
      simp only [World.plan] at ho
      split at ho
      · simp [Plan.refuse] at ho
      · split at ho
        · simp at ho
        · rcases List.mem_append.1 ho with ho | ho
          · simp at ho
          · rcases List.mem_append.1 ho with ho | ho
            · simp at ho
            · exact (hst _ _ _ ho).1 rfl
    | insert m q =>
      simp only [World.plan] at ho
      split at ho
      · exact (hst _ _ _ ho).1 rfl
      · simp [Plan.refuse] at ho
    | modify m p g =>
      simp only [World.plan] at ho
      cases hl : w.look m with
      | none => simp [hl, Plan.refuse] at ho
      | some e =>
        simp only [hl] at ho
        split at ho
        · simp [Plan.refuse] at ho
        · split at ho
          · simp at ho
          · simp only [List.nil_append] at ho
            rcases List.mem_append.1 ho with ho | ho
            · obtain ⟨q, r, h, -⟩ := mem_puts ho
              cases h
            · simp at ho
    | truncate m =>
      simp only [World.plan] at ho
      split at ho <;> simp [Plan.refuse] at ho
    | vacuum m =>
      simp only [World.plan] at ho
      cases hl : w.look m with
      | none => simp [hl, Plan.refuse] at ho
      | some e =>
        simp only [hl] at ho
        split at ho <;> simp at ho
    | drop m =>
      simp only [World.plan] at ho
      split at ho <;> simp [Plan.refuse] at ho
      exact hs ho.symm
    | rename m m' =>
      simp only [World.plan] at ho
      split at ho <;> simp [Plan.refuse] at ho
    | select q =>
      simp only [World.plan] at ho
      split at ho <;> simp [Plan.refuse] at ho
    | wait d => simp [World.plan] at ho
  · rintro m0 rfl
    cases s with
    | create m =>
      simp only [World.plan] at ho
      split at ho <;> simp at ho
    | createAs m q =>
      simp only [World.plan] at ho
      split at ho
      · simp [Plan.refuse] at ho
      · split at ho
        · simp at ho
        · rcases List.mem_append.1 ho with ho | ho
          · simp at ho
          · rcases List.mem_append.1 ho with ho | ho
            · simp at ho
            · exact (hst _ _ _ ho).2 _ rfl
    | insert m q =>
      simp only [World.plan] at ho
      split at ho
      · exact (hst _ _ _ ho).2 _ rfl
      · simp [Plan.refuse] at ho
    | modify m p g =>
      simp only [World.plan] at ho
      cases hl : w.look m with
      | none => simp [hl, Plan.refuse] at ho
      | some e =>
        simp only [hl] at ho
        split at ho
        · simp [Plan.refuse] at ho
        · split at ho
          · simp at ho
          · simp only [List.nil_append] at ho
            rcases List.mem_append.1 ho with ho | ho
            · obtain ⟨q, r, h, -⟩ := mem_puts ho
              cases h
            · simp at ho
    | truncate m =>
      simp only [World.plan] at ho
      split at ho <;> simp [Plan.refuse] at ho
    | vacuum m =>
      simp only [World.plan] at ho
      cases hl : w.look m with
      | none => simp [hl, Plan.refuse] at ho
      | some e =>
        simp only [hl] at ho
        split at ho <;> simp at ho
    | drop m =>
      simp only [World.plan] at ho
      split at ho <;> simp [Plan.refuse] at ho
    | rename m m' =>
      simp only [World.plan] at ho
      split at ho <;> simp [Plan.refuse] at ho
      exact hs ho.1.symm
    | select q =>
      simp only [World.plan] at ho
      split at ho <;> simp [Plan.refuse] at ho
    | wait d => simp [World.plan] at ho

theorem key_of_find {w : World ρ} {n : String} {e : Entry} (h : w.find n = some e) : (n, e.uuid) ∈ w.keys := by
  obtain ⟨h1, h2⟩ := find_mem h
  exact List.mem_map.2 ⟨e, h1, by rw [h2]⟩

theorem exec_lost {E : Env ρ} (hE : E.Sound) {w : World ρ} {d : Db ρ} (hw : Sim w d) {n : String} {u p : Nat} {r : List ρ}
    (h : Lost w u p r) (hk : (n, u) ∈ w.keys) {s : Stmt ρ} (hs : s.Keeps n) (f : Fault) :
    Lost (w.exec E s f).1 u p r ∧ (n, u) ∈ (w.exec E s f).1.keys ∧ ∃ d', Sim (w.exec E s f).1 d' := by
  obtain ⟨d', -, hd'⟩ := exec_fits hE hw s f
  refine ⟨?_, ?_, d', hd'⟩
  · rcases exec_carry E w s f with ⟨d, rfl, he⟩ | he
    · rw [he]; exact ⟨h.past, h.here, h.unnamed⟩
    · rw [he]
      obtain ⟨ops, h1, h2⟩ := carry_ops w (w.plan E s) f
      rw [h1]
      refine applyAll_lost ops h fun o ho => plan_safe E h s ?_ o (h2 o ho)
      rintro m e rfl hf rfl
      have h3 := key_of_find hf
      have h4 := List.inj_on_of_nodup_map hw.uuids hk h3 rfl
      cases h4
      exact hs rfl
  · rcases exec_carry E w s f with ⟨d, rfl, he⟩ | he
    · rw [he]; exact hk
    · rw [he]
      obtain ⟨ops, h1, h2⟩ := carry_ops w (w.plan E s) f
      rw [h1]
      exact applyAll_key ops hk (fun o ho => (plan_keeps E w hs o (h2 o ho)).1) fun o ho => (plan_keeps E w hs o (h2 o ho)).2

theorem run_lost {E : Env ρ} (hE : E.Sound) {n : String} {u p : Nat} {r : List ρ} (sts : List (Stmt ρ × Fault)) :
    ∀ {w : World ρ} {d : Db ρ}, Sim w d → Lost w u p r → (n, u) ∈ w.keys → (∀ s ∈ sts, s.1.Keeps n) →
    Lost (w.run E sts).1 u p r := by
  induction sts with
  | nil => intro w d _ h _ _; exact h
  | cons x sts ih =>
    intro w d hw h hk hs
    obtain ⟨h1, h2, d', h3⟩ := exec_lost hE hw h hk (hs x List.mem_cons_self) x.2
    exact ih h3 h1 h2 fun s hx => hs s (List.mem_cons_of_mem _ hx)

/-! ### what there is when nothing fails -/

structure Clean (w : World ρ) : Prop where
  owned : ∀ u, w.Occupied u → w.Owned u
  named : ∀ u p, w.files u p ≠ none → ∃ c ∈ w.log u, p ∈ c.adds

theorem owned_iff {w : World ρ} {u : Nat} : w.Owned u ↔ ∃ n, (n, u) ∈ w.keys := by
  constructor
  · rintro ⟨e, h, rfl⟩
    exact ⟨e.name, List.mem_map.2 ⟨e, h, rfl⟩⟩
  · rintro ⟨n, h⟩
    obtain ⟨e, h1, h2⟩ := List.mem_map.1 h
    cases h2
    exact ⟨e, h1, rfl⟩

theorem Owned.keys {w w' : World ρ} (h : w'.keys = w.keys) {u : Nat} (ho : w.Owned u) : w'.Owned u := by
  rw [owned_iff] at ho ⊢
  rwa [h]

theorem puts_files {u : Nat} (cs : List (List ρ)) : ∀ {w : World ρ} {p q : Nat}, (w.applyAll (puts u p cs)).files u q ≠ none →
    w.files u q ≠ none ∨ q ∈ names p cs := by
  induction cs with
  | nil => intro w p q h; exact .inl h
  | cons c cs ih =>
    intro w p q h
    rcases ih (w := w.apply (.put u p c)) h with h1 | h1
    · simp only [World.apply, set, if_true] at h1
      split at h1
      · next hq => exact .inr (by simp [names, hq])
      · exact .inl h1
    · exact .inr (List.mem_cons_of_mem _ h1)

/-- Uploads and an entry that names them. -/
theorem clean_commit {w : World ρ} (h : Clean w) {u : Nat} (hu : w.Owned u) (cs : List (List ρ)) (r : List Nat) :
    Clean (w.applyAll (puts u w.path cs ++ [.commit u (names w.path cs) r])) ∧
      (w.applyAll (puts u w.path cs ++ [.commit u (names w.path cs) r])).keys = w.keys := by
  have hU := puts_spec u cs w
  rw [applyAll_append]
  have hk : ((w.applyAll (puts u w.path cs)).applyAll [.commit u (names w.path cs) r]).keys = w.keys := by
    show (w.applyAll (puts u w.path cs)).keys = w.keys
    simp [World.keys, hU.entries]
  refine ⟨⟨?_, ?_⟩, hk⟩
  · intro v hv
    apply Owned.keys hk
    by_cases huv : v = u
    · rw [huv]; exact hu
    · apply h.owned
      rcases hv with hv | ⟨p, hp⟩
      · left
        simp only [World.applyAll, List.foldl_cons, List.foldl_nil, World.apply, set, if_neg huv] at hv
        rw [← hU.log]
        exact hv
      · right
        refine ⟨p, ?_⟩
        rw [← hU.others v huv]
        exact hp
  · intro v p hp
    by_cases huv : v = u
    · subst huv
      have hl : ((w.applyAll (puts v w.path cs)).applyAll [.commit v (names w.path cs) r]).log v =
          w.log v ++ [⟨w.now, names w.path cs, r⟩] := by
        simp only [World.applyAll, List.foldl_cons, List.foldl_nil, World.apply, set, if_true]
        have h1 := hU.log
        have h2 := hU.now
        simp only [World.applyAll] at h1 h2
        rw [h1, h2]
      rw [hl]
      rcases puts_files cs (show (w.applyAll (puts v w.path cs)).files v p ≠ none from hp) with h1 | h1
      · obtain ⟨c, h2, h3⟩ := h.named v p h1
        exact ⟨c, List.mem_append_left _ h2, h3⟩
      · exact ⟨_, List.mem_append_right _ (List.mem_singleton.2 rfl), h1⟩
    · have hp' : (w.applyAll (puts u w.path cs)).files v p ≠ none := hp
      rw [hU.others v huv] at hp'
      obtain ⟨c, h2, h3⟩ := h.named v p hp'
      refine ⟨c, ?_, h3⟩
      simp only [World.applyAll, List.foldl_cons, List.foldl_nil, World.apply, set, if_neg huv]
      have h1 := hU.log
      simp only [World.applyAll] at h1
      rw [h1]
      exact h2

theorem clean_keys {w w' : World ρ} (h : Clean w) (hk : w'.keys = w.keys) (hl : w'.log = w.log) (hf : w'.files = w.files) :
    Clean w' := by
  refine ⟨fun u hu => Owned.keys hk (h.owned u ?_), fun u p hp => ?_⟩
  · rcases hu with hu | hu
    · exact .inl (hl ▸ hu)
    · exact .inr (hf ▸ hu)
  · rw [hl]
    exact h.named u p (hf ▸ hp)

theorem clean_store {w : World ρ} (h : Clean w) {u : Nat} (hu : w.Owned u) (cs : List (List ρ)) (r : List Nat) :
    Clean (w.applyAll (puts u w.path cs ++ [.commit u (names w.path cs) r, .record u])) := by
  obtain ⟨h1, -⟩ := clean_commit h hu cs r
  have e : puts u w.path cs ++ [.commit u (names w.path cs) r, .record u] =
      (puts u w.path cs ++ [.commit u (names w.path cs) r]) ++ [.record u] := by simp
  rw [e, applyAll_append]
  exact clean_keys h1 (record_keys _ u) rfl rfl

theorem clean_create {w : World ρ} {d : Db ρ} (hw : Sim w d) (h : Clean w) (n : String) :
    Clean (w.applyAll [.mk w.uuid, .enter n w.uuid]) ∧ (w.applyAll [.mk w.uuid, .enter n w.uuid]).Owned w.uuid := by
  have hnew : (w.applyAll [.mk w.uuid, .enter n w.uuid]).Owned w.uuid :=
    ⟨_, List.mem_append_right _ (List.mem_singleton.2 rfl), rfl⟩
  have hno : ¬ w.Occupied w.uuid := by
    intro ho
    obtain ⟨m, hm⟩ := owned_iff.1 (h.owned _ ho)
    exact Nat.lt_irrefl _ (hw.fresh _ hm)
  refine ⟨⟨?_, ?_⟩, hnew⟩
  · intro v hv
    by_cases hvu : v = w.uuid
    · rw [hvu]; exact hnew
    · have : w.Owned v := by
        apply h.owned
        rcases hv with hv | hv
        · left
          simpa only [World.applyAll, List.foldl_cons, List.foldl_nil, World.apply, set, if_neg hvu] using hv
        · exact .inr hv
      obtain ⟨e, h1, h2⟩ := this
      exact ⟨e, List.mem_append_left _ h1, h2⟩
  · intro v p hp
    have hp' : w.files v p ≠ none := hp
    by_cases hvu : v = w.uuid
    · subst hvu
      exact absurd (.inr ⟨p, hp'⟩) hno
    · obtain ⟨c, h1, h2⟩ := h.named v p hp'
      refine ⟨c, ?_, h2⟩
      simpa only [World.applyAll, List.foldl_cons, List.foldl_nil, World.apply, set, if_neg hvu] using h1

theorem erase_files {u : Nat} (ps : List Nat) : ∀ (w : World ρ) (p : Nat),
    (w.applyAll (ps.map (.erase u ·))).files u p = if p ∈ ps then none else w.files u p := by
  induction ps with
  | nil => intro w p; simp [World.applyAll]
  | cons q ps ih =>
    intro w p
    show ((w.apply (.erase u q)).applyAll (ps.map (.erase u ·))).files u p = _
    rw [ih]
    by_cases h1 : p ∈ ps
    · simp [h1]
    · by_cases h2 : p = q
      · simp [h2, World.apply, set]
      · simp [h1, h2, World.apply, set]

/-- What remains of a directory when some of the deletions are done. -/
theorem drop_dir (w : World ρ) (u : Nat) (ps : List Nat) :
    (w.applyAll (.eraseLog u :: ps.map (.erase u ·))).log u = [] ∧
      ∀ p, (w.applyAll (.eraseLog u :: ps.map (.erase u ·))).files u p = if p ∈ ps then none else w.files u p := by
  constructor
  · have h := (removal_spec (ps.map (.erase u ·)) (fun o ho => by
      obtain ⟨p, -, rfl⟩ := List.mem_map.1 ho
      exact .inr ⟨p, rfl⟩) (w.apply (.eraseLog u))).2.2.2
    exact h (by simp [World.apply, set])
  · intro p
    exact erase_files ps (w.apply (.eraseLog u)) p

theorem drop_other {w : World ρ} {d : Db ρ} (hw : Sim w d) {n : String} {u : Nat} (hm : (n, u) ∈ w.keys) (w' : World ρ)
    (hk : w'.keys = w.keys) {v : Nat} (hv : v ≠ u) (ho : w.Owned v) : (w'.apply (.forget n)).Owned v := by
  obtain ⟨m, h1⟩ := owned_iff.1 ho
  refine owned_iff.2 ⟨m, apply_key (hk ▸ h1) ?_ (by simp)⟩
  intro he
  cases he
  have := List.inj_on_of_nodup_map hw.names hm h1 rfl
  cases this
  exact hv rfl

theorem not_owned_drop {w : World ρ} {d : Db ρ} (hw : Sim w d) {n : String} {u : Nat} (hm : (n, u) ∈ w.keys) (w' : World ρ)
    (hk : w'.keys = w.keys) : ¬ (w'.apply (.forget n)).Owned u := by
  rintro ⟨e, he, rfl⟩
  obtain ⟨h1, h2⟩ := List.mem_filter.1 he
  have h3 : (e.name, e.uuid) ∈ w.keys := by
    rw [← hk]
    exact List.mem_map.2 ⟨e, h1, rfl⟩
  have := List.inj_on_of_nodup_map hw.uuids hm h3 rfl
  cases this
  simp at h2

theorem removals {u : Nat} (k : Nat) : ∀ o ∈ Op.eraseLog (ρ := ρ) u :: (List.range k).map (.erase u ·), Removal u o := by
  intro o ho
  rcases List.mem_cons.1 ho with rfl | ho
  · exact .inl rfl
  · obtain ⟨p, -, rfl⟩ := List.mem_map.1 ho
    exact .inr ⟨p, rfl⟩

theorem clean_drop {w : World ρ} {d : Db ρ} (hw : Sim w d) (hb : Bounded w) (h : Clean w) {n : String} {e : Entry}
    (hf : w.find n = some e) :
    Clean (w.applyAll ((.eraseLog e.uuid :: (List.range w.path).map (.erase e.uuid ·)) ++ [.forget n])) := by
  obtain ⟨h1, h2, -, -⟩ := removal_spec (.eraseLog e.uuid :: (List.range w.path).map (.erase e.uuid ·)) (removals w.path) w
  obtain ⟨h3, h4⟩ := drop_dir w e.uuid (List.range w.path)
  rw [applyAll_append]
  generalize w.applyAll (.eraseLog e.uuid :: (List.range w.path).map (.erase e.uuid ·)) = w' at *
  have h5 : ∀ p, w'.files e.uuid p = none := by
    intro p
    rw [h4]
    split
    · rfl
    · next hp =>
      cases hq : w.files e.uuid p with
      | none => rfl
      | some r => exact absurd (List.mem_range.2 (hb e.uuid p (by simp [hq]))) hp
  refine ⟨?_, ?_⟩
  · intro v hv
    by_cases hvu : v = e.uuid
    · subst hvu
      rcases hv with hv | ⟨p, hp⟩
      · exact absurd h3 hv
      · exact absurd (h5 p) hp
    · refine drop_other hw (key_of_find hf) w' h1 hvu (h.owned v ?_)
      rcases hv with hv | ⟨p, hp⟩
      · left
        rw [← h2.log v hvu]
        exact hv
      · right
        refine ⟨p, ?_⟩
        rw [← h2.files v hvu]
        exact hp
  · intro v p hp
    have hp' : w'.files v p ≠ none := hp
    by_cases hvu : v = e.uuid
    · subst hvu
      exact absurd (h5 p) hp'
    · rw [h2.files v hvu] at hp'
      obtain ⟨c, h6, h7⟩ := h.named v p hp'
      refine ⟨c, ?_, h7⟩
      show c ∈ w'.log v
      rw [h2.log v hvu]
      exact h6

/-- The operations of VACUUM. -/
def vacOps (E : Env ρ) (w : World ρ) (n : String) (u : Nat) : List (Op ρ) :=
  (if E.mark && !(dead (w.log u)).isEmpty then [.commit u [] []] else []) ++ (dead (w.log u)).map (.erase u ·) ++
    (if E.mark && !(dead (w.log u)).isEmpty then [.commit u [] []] else []) ++ [.prune n]

theorem vacOps_all (E : Env ρ) (w : World ρ) (n : String) (u : Nat) : ∀ o ∈ vacOps E w n u, VacOp u (dead (w.log u)) n o := by
  have hm : ∀ o ∈ (if E.mark && !(dead (w.log u)).isEmpty then [Op.commit (ρ := ρ) u [] []] else []),
      o = .commit u [] [] := by
    intro o ho
    split at ho
    · simpa using ho
    · simp at ho
  intro o ho
  rcases List.mem_append.1 ho with ho | ho
  · rcases List.mem_append.1 ho with ho | ho
    · rcases List.mem_append.1 ho with ho | ho
      · exact .inl (hm o ho)
      · obtain ⟨p, hp, rfl⟩ := List.mem_map.1 ho
        exact .inr (.inl ⟨p, hp, rfl⟩)
    · exact .inl (hm o ho)
  · simp only [List.mem_singleton] at ho
    exact .inr (.inr ho)

theorem clean_vacuum (E : Env ρ) {w : World ρ} (h : Clean w) (n : String) {u : Nat} (hu : w.Owned u) : Clean (w.applyAll (vacOps E w n u)) := by
  have hv := vacuumed_all (w := w) _ (vacOps_all E w n u)
  generalize w.applyAll (vacOps E w n u) = w' at *
  obtain ⟨ms, hl, hms, -⟩ := hv.log
  have hfiles : ∀ v p, w'.files v p ≠ none → w.files v p ≠ none := by
    intro v p hp
    by_cases hvu : v = u
    · subst hvu
      rcases hv.less p with h1 | h1
      · rw [← h1]; exact hp
      · exact absurd h1 hp
    · rw [← hv.frame.files v hvu]; exact hp
  refine ⟨?_, ?_⟩
  · intro v hvo
    apply Owned.keys hv.keys
    by_cases hvu : v = u
    · rw [hvu]; exact hu
    · apply h.owned
      rcases hvo with h1 | ⟨p, hp⟩
      · left
        rw [← hv.frame.log v hvu]
        exact h1
      · exact .inr ⟨p, hfiles v p hp⟩
  · intro v p hp
    obtain ⟨c, h1, h2⟩ := h.named v p (hfiles v p hp)
    refine ⟨c, ?_, h2⟩
    by_cases hvu : v = u
    · subst hvu
      rw [hl]
      exact List.mem_append_left _ h1
    · rw [hv.frame.log v hvu]
      exact h1

theorem clean_rename {w : World ρ} (h : Clean w) (n m : String) : Clean (w.apply (.rename n m)) := by
  refine ⟨fun u hu => ?_, fun u p hp => h.named u p hp⟩
  obtain ⟨e, h1, h2⟩ := h.owned u hu
  refine ⟨_, List.mem_map.2 ⟨e, h1, rfl⟩, ?_⟩
  split <;> exact h2

theorem clean_exec (E : Env ρ) {w : World ρ} {d : Db ρ} (hw : Sim w d) (hb : Bounded w) (h : Clean w) (s : Stmt ρ)
    (hs : s.Creates → (w.exec E s .none).2 ≠ .refused) : Clean (w.exec E s .none).1 := by
  have own : ∀ {n : String} {e : Entry}, w.find n = some e → w.Owned e.uuid := fun hf => ⟨_, (find_mem hf).1, rfl⟩
  cases s with
  | create n =>
    cases hf : w.find n with
    | some e =>
      refine absurd ?_ (hs trivial)
      simp [World.exec, World.carry, World.plan, hf]
    | none =>
      simp only [World.exec, World.plan, hf, World.carry, List.nil_append]
      exact (clean_create hw h n).1
  | createAs n q =>
    cases hq : w.query q with
    | none =>
      simp only [World.exec, World.plan, hq, World.carry, Plan.refuse]
      exact h
    | some rows =>
      cases hf : w.find n with
      | some e =>
        refine absurd ?_ (hs trivial)
        simp [World.exec, World.carry, World.plan, hf, hq]
      | none =>
        simp only [World.exec, World.plan, hq, hf, World.carry, List.nil_append]
        rw [applyAll_append]
        obtain ⟨h1, h2⟩ := clean_create hw h n
        exact clean_store h1 h2 (E.cut rows) []
  | insert n q =>
    cases hq : w.query q with
    | none =>
      simp only [World.exec, World.plan, hq, World.carry, Plan.refuse]
      exact h
    | some rows =>
      cases hl : w.look n with
      | none =>
        simp only [World.exec, World.plan, hq, hl, World.carry, Plan.refuse]
        exact h
      | some e =>
        simp only [World.exec, World.plan, hq, hl, World.carry, List.nil_append]
        exact clean_store h (own (st_look_find hl).1) (E.cut rows) []
  | modify n p g =>
    cases hl : w.look n with
    | none =>
      simp only [World.exec, World.plan, hl, World.carry, Plan.refuse]
      exact h
    | some e =>
      have ho := own (st_look_find hl).1
      simp only [World.exec, World.plan, hl]
      cases hr : readAll (w.files e.uuid) (touched E (w.files e.uuid) p (live (w.log e.uuid))) with
      | none =>
        dsimp only [World.carry, Plan.refuse]
        exact h
      | some rows =>
        dsimp only
        split
        · exact clean_store h ho [] []
        · exact clean_store h ho (E.cut (rows.filterMap (change p g))) _
  | truncate n =>
    cases hl : w.look n with
    | none =>
      simp only [World.exec, World.plan, hl, World.carry, Plan.refuse]
      exact h
    | some e =>
      simp only [World.exec, World.plan, hl]
      exact (clean_commit h (own (st_look_find hl).1) [] _).1
  | vacuum n =>
    cases hl : w.look n with
    | none =>
      simp only [World.exec, World.plan, hl, World.carry, Plan.refuse]
      exact h
    | some e =>
      simp only [World.exec, World.plan, hl]
      exact clean_vacuum E h n (own (st_look_find hl).1)
  | drop n =>
    cases hf : w.find n with
    | none =>
      simp only [World.exec, World.plan, hf, World.carry, Plan.refuse]
      exact h
    | some e =>
      simp only [World.exec, World.plan, hf]
      exact clean_drop hw hb h hf
  | rename n m =>
    simp only [World.exec, World.plan]
    split
    · exact clean_rename h n m
    · exact h
  | select q =>
    simp only [World.exec, World.plan]
    split <;> exact h
  | wait k => exact clean_keys h rfl rfl rfl

theorem clean_run {E : Env ρ} (hE : E.Sound) (sts : List (Stmt ρ × Fault)) : ∀ {w : World ρ} {d : Db ρ}, Sim w d → Bounded w →
    Clean w → Tidy E w sts → Clean (w.run E sts).1 := by
  induction sts with
  | nil => intro w d _ _ h _; exact h
  | cons x sts ih =>
    intro w d hw hb h ht
    obtain ⟨s, f⟩ := x
    have hf : f = .none := ht.1 (s, f) List.mem_cons_self
    subst hf
    obtain ⟨d', -, hw'⟩ := exec_fits hE hw s .none
    have hs : s.Creates → (w.exec E s .none).2 ≠ .refused := ht.2 ((s, .none), (w.exec E s .none).2) (by simp [World.run])
    refine ih hw' (exec_bounded E hb s .none) (clean_exec E hw hb h s hs) ⟨fun x hx => ht.1 x (List.mem_cons_of_mem _ hx), ?_⟩
    intro x hx
    exact ht.2 x (by simp only [World.run, List.zip_cons_cons]; exact List.mem_cons_of_mem _ hx)

theorem clean_empty : Clean (World.empty : World ρ) :=
  ⟨fun u hu => by rcases hu with hu | ⟨p, hp⟩ <;> simp [World.empty] at *, fun u p hp => absurd rfl hp⟩

/-! ### VACUUM -/

/-- A file that was added and is not part of the newest version was removed. -/
theorem removed_of_not_live (log : List Commit) {p : Nat} (h1 : ∃ c ∈ log, p ∈ c.adds) (h2 : p ∉ live log) :
    ∃ c ∈ log, p ∈ c.removes := by
  rcases h : log.reverse with _ | ⟨c, l⟩
  · simp at h
    subst h
    obtain ⟨c, hc, -⟩ := h1
    simp at hc
  · have hlog : log = l.reverse ++ [c] := by
      have := congrArg List.reverse h
      simpa using this
    generalize hn : log.length = k
    induction k generalizing log c l with
    | zero => rw [hlog] at hn; simp at hn
    | succ k ih =>
      subst hlog
      rw [live_snoc] at h2
      simp only [List.mem_append, List.mem_filter, not_or, not_and] at h2
      by_cases hr : p ∈ c.removes
      · exact ⟨c, by simp, hr⟩
      · have hnl : p ∉ live l.reverse := by
          intro hp
          exact h2.1 hp (by simpa using hr)
        obtain ⟨c', hc', hp⟩ := h1
        rcases List.mem_append.1 hc' with hc' | hc'
        · cases l with
          | nil => simp at hc'
          | cons c2 l2 =>
            obtain ⟨c3, h3, h4⟩ := ih (c2 :: l2).reverse ⟨c', hc', hp⟩ hnl c2 l2 (by simp) (by simp) (by simpa using hn)
            exact ⟨c3, List.mem_append_left _ h3, h4⟩
        · simp only [List.mem_singleton] at hc'
          subst hc'
          exact absurd hp h2.2

theorem vacOps_files (E : Env ρ) (w : World ρ) (n : String) (u p : Nat) :
    (w.applyAll (vacOps E w n u)).files u p = if p ∈ dead (w.log u) then none else w.files u p := by
  have hm : ∀ v : World ρ, (v.applyAll (if E.mark && !(dead (w.log u)).isEmpty then [.commit u [] []] else [])).files = v.files := by
    intro v
    split <;> rfl
  unfold vacOps
  rw [applyAll_append, applyAll_append, applyAll_append]
  have hp : ∀ v : World ρ, (v.applyAll [.prune n]).files = v.files := fun _ => rfl
  rw [hp, hm, erase_files, hm]

/-! ### C143 -/

theorem readAll_gone {f : Nat → Option (List ρ)} {l : List Nat} {p : Nat} (hp : p ∈ l) (hf : f p = none) : readAll f l = none := by
  induction l with
  | nil => simp at hp
  | cons q l ih =>
    rcases List.mem_cons.1 hp with rfl | hp
    · simp [readAll, hf]
    · simp only [readAll, ih hp]
      cases f q <;> rfl

/-- The server after some statements. -/
abbrev after (E : Env ρ) (sts : List (Stmt ρ × Fault)) : World ρ := (World.empty.run E sts).1

/-- **C143, partial**: as long as nothing fails and no CREATE TABLE is refused, all that is stored belongs to a table. -/
theorem C143_partial {E : Env ρ} (hE : E.Sound) (sts : List (Stmt ρ × Fault)) (ht : Tidy E World.empty sts) (u : Nat)
    (hu : (after E sts).Occupied u) : (after E sts).Owned u :=
  (clean_run hE sts sim_empty bounded_empty clean_empty ht).owned u hu

/-- **C143, partial**: then VACUUM leaves exactly the files of the newest version. -/
theorem C143_vacuum_partial {E : Env ρ} (hE : E.Sound) (sts : List (Stmt ρ × Fault)) (ht : Tidy E World.empty sts) (n : String)
    {e : Entry} (hl : (after E sts).look n = some e) :
    ((after E sts).exec E (.vacuum n) .none).2 = .ok ∧
    ∀ p, ((after E sts).exec E (.vacuum n) .none).1.files e.uuid p ≠ none ↔
      p ∈ live (((after E sts).exec E (.vacuum n) .none).1.log e.uuid) := by
  obtain ⟨d, -, hw⟩ := run_fits hE sts (w := World.empty) sim_empty
  change Sim (after E sts) d at hw
  have hc : Clean (after E sts) := clean_run hE sts (w := World.empty) sim_empty bounded_empty clean_empty ht
  generalize after E sts = w at *
  simp only [World.exec, World.plan, hl]
  refine ⟨rfl, ?_⟩
  show ∀ p, (w.applyAll (vacOps E w n e.uuid)).files e.uuid p ≠ none ↔ p ∈ live ((w.applyAll (vacOps E w n e.uuid)).log e.uuid)
  intro p
  obtain ⟨ms, hlog, hms, -⟩ := (vacuumed_all (w := w) _ (vacOps_all E w n e.uuid)).log
  rw [hlog, live_marks _ _ (fun c hc => ⟨(hms c hc).1, (hms c hc).2.1⟩), vacOps_files]
  constructor
  · intro h
    split at h
    · exact absurd rfl h
    · next hd =>
      by_cases hp : p ∈ live (w.log e.uuid)
      · exact hp
      · obtain ⟨c, h1, h2⟩ := removed_of_not_live _ (hc.named _ p h) hp
        refine absurd (List.mem_filter.2 ⟨List.mem_flatMap.2 ⟨c, h1, h2⟩, ?_⟩) hd
        simpa using hp
  · intro hp
    rw [if_neg]
    · obtain ⟨r, r', h1, h2, h3, h4, h5, h6⟩ := hw.now hl
      intro hn
      rw [readAll_gone hp hn] at h2
      cases h2
    · intro hd
      have := (List.mem_filter.1 hd).2
      simp only [Bool.not_eq_eq_eq_not, Bool.not_true, List.contains_eq_mem, decide_eq_false_iff_not] at this
      exact this hp

/-- **C143, DROP**: whatever happened before, a DROP TABLE that does not fail leaves nothing of the table. -/
theorem C143_drop {E : Env ρ} (hE : E.Sound) (before : List (Stmt ρ × Fault)) (n : String) {e : Entry}
    (hf : (after E before).find n = some e) :
    ((after E before).exec E (.drop n) .none).2 = .ok ∧
      ¬ ((after E before).exec E (.drop n) .none).1.Occupied e.uuid ∧
      ¬ ((after E before).exec E (.drop n) .none).1.Owned e.uuid := by
  obtain ⟨d, -, hw⟩ := run_fits hE before (w := World.empty) sim_empty
  change Sim (after E before) d at hw
  have hb : Bounded (after E before) := run_bounded E before (w := World.empty) bounded_empty
  generalize after E before = w at *
  simp only [World.exec, World.plan, hf, World.carry]
  rw [applyAll_append]
  obtain ⟨h1, -, -, -⟩ := removal_spec (.eraseLog e.uuid :: (List.range w.path).map (.erase e.uuid ·)) (removals w.path) w
  obtain ⟨h3, h4⟩ := drop_dir w e.uuid (List.range w.path)
  refine ⟨trivial, ?_, not_owned_drop hw (key_of_find hf) _ h1⟩
  rintro (h | ⟨p, hp⟩)
  · exact h h3
  · have hp' := hp
    change (w.applyAll (.eraseLog e.uuid :: (List.range w.path).map (.erase e.uuid ·))).files e.uuid p ≠ none at hp'
    rw [h4] at hp'
    split at hp'
    · exact hp' rfl
    · next hr => exact hr (List.mem_range.2 (hb _ p hp'))

/-- What is in a directory that is no table's stays there for ever. -/
theorem C143_stray_forever (E : Env ρ) (w : World ρ) (u : Nat) (h1 : u < w.uuid) (h2 : ¬ w.Owned u) (sts : List (Stmt ρ × Fault)) :
    (w.run E sts).1.log u = w.log u ∧ (w.run E sts).1.files u = w.files u ∧ ¬ (w.run E sts).1.Owned u := by
  have h := run_stray E sts (w := w) (u := u) ⟨h1, fun e he hu => h2 ⟨e, he, hu⟩⟩
  exact ⟨h.2.1, h.2.2, fun ⟨e, he, hu⟩ => h.1.alone e he hu⟩

/-- The directory of a new table is made before the metastore has a say. -/
theorem mk_stray {E : Env ρ} (hE : E.Sound) (before : List (Stmt ρ × Fault)) (later : List (Stmt ρ × Fault)) :
    (((after E before).apply (.mk (after E before).uuid)).run E later).1.log (after E before).uuid ≠ [] ∧
      ¬ (((after E before).apply (.mk (after E before).uuid)).run E later).1.Owned (after E before).uuid := by
  obtain ⟨d, -, hw⟩ := run_fits hE before (w := World.empty) sim_empty
  change Sim (after E before) d at hw
  generalize after E before = w at *
  have h2 : ¬ (w.apply (.mk w.uuid)).Owned w.uuid := by
    intro ho
    obtain ⟨m, hm⟩ := owned_iff.1 ho
    exact Nat.lt_irrefl _ (hw.fresh (m, w.uuid) hm)
  obtain ⟨h3, -, h4⟩ := C143_stray_forever E (w.apply (.mk w.uuid)) w.uuid (by simp only [World.apply]; omega) h2 later
  refine ⟨?_, h4⟩
  rw [h3]
  simp [World.apply, set]

/-- **C143 is violated (CREATE TABLE)**: each CREATE TABLE of a name that is taken leaves a Delta log behind, in a directory of
its own.  It is not the directory of a table, and no later statement removes it. -/
theorem C143_violated_create_always {E : Env ρ} (hE : E.Sound) (before : List (Stmt ρ × Fault)) (n : String)
    (hn : (after E before).find n ≠ none) (later : List (Stmt ρ × Fault)) :
    ((after E before).exec E (.create n) .none).2 = .refused ∧
    (((after E before).exec E (.create n) .none).1.run E later).1.log (after E before).uuid ≠ [] ∧
      ¬ (((after E before).exec E (.create n) .none).1.run E later).1.Owned (after E before).uuid := by
  cases hf : (after E before).find n with
  | none => exact absurd hf hn
  | some e =>
    simp only [World.exec, World.plan, hf]
    exact ⟨rfl, mk_stray hE before later⟩

/-- **C143 is violated (CREATE TABLE AS)**: likewise. -/
theorem C143_violated_create_as_always {E : Env ρ} (hE : E.Sound) (before : List (Stmt ρ × Fault)) (n : String) (q : Query ρ)
    (hn : (after E before).find n ≠ none) (hq : (after E before).query q ≠ none) (later : List (Stmt ρ × Fault)) :
    ((after E before).exec E (.createAs n q) .none).2 = .refused ∧
    (((after E before).exec E (.createAs n q) .none).1.run E later).1.log (after E before).uuid ≠ [] ∧
      ¬ (((after E before).exec E (.createAs n q) .none).1.run E later).1.Owned (after E before).uuid := by
  cases hf : (after E before).find n with
  | none => exact absurd hf hn
  | some e =>
    cases hr : (after E before).query q with
    | none => exact absurd hr hq
    | some rows =>
      simp only [World.exec, World.plan, hf, hr]
      exact ⟨rfl, mk_stray hE before later⟩

/-- **C143 is violated (CREATE TABLE that fails)**: if the metastore cannot be reached, or the server stops, once the directory is
made, that directory stays for ever. -/
theorem C143_violated_create_failed_always {E : Env ρ} (hE : E.Sound) (before : List (Stmt ρ × Fault)) (n : String)
    (hn : (after E before).find n = none) (f : Fault) (hf : f = .error 1 ∨ f = .crash 1) (later : List (Stmt ρ × Fault)) :
    ((after E before).exec E (.create n) f).2 = .failed ∧
    (((after E before).exec E (.create n) f).1.run E later).1.log (after E before).uuid ≠ [] ∧
      ¬ (((after E before).exec E (.create n) f).1.run E later).1.Owned (after E before).uuid := by
  simp only [World.exec, World.plan, hn]
  rcases hf with rfl | rfl <;> exact ⟨rfl, mk_stray hE before later⟩

/-- **C143 is violated (DROP TABLE)**: a DROP TABLE in which the deletion of a file fails is reported as a success.  The files not
yet deleted stay for ever. -/
theorem C143_violated_drop_always {E : Env ρ} (hE : E.Sound) (before : List (Stmt ρ × Fault)) (n : String) {e : Entry}
    (hf : (after E before).find n = some e) {p k : Nat} {r : List ρ} (hr : (after E before).files e.uuid p = some r) (hk : k ≤ p + 1)
    (later : List (Stmt ρ × Fault)) :
    ((after E before).exec E (.drop n) (.error k)).2 = .ok ∧
    (((after E before).exec E (.drop n) (.error k)).1.run E later).1.files e.uuid p = some r ∧
      ¬ (((after E before).exec E (.drop n) (.error k)).1.run E later).1.Owned e.uuid := by
  obtain ⟨d, -, hw⟩ := run_fits hE before (w := World.empty) sim_empty
  change Sim (after E before) d at hw
  have hb : Bounded (after E before) := run_bounded E before (w := World.empty) bounded_empty
  generalize after E before = w at *
  have hp := hb e.uuid p (by simp [hr])
  have hlen : k < (Op.eraseLog (ρ := ρ) e.uuid :: (List.range w.path).map (.erase e.uuid ·)).length := by
    simp only [List.length_cons, List.length_map, List.length_range]
    omega
  simp only [World.exec, World.plan, hf, World.carry, if_pos hlen]
  rw [applyAll_append]
  have hall : ∀ o ∈ (Op.eraseLog (ρ := ρ) e.uuid :: (List.range w.path).map (.erase e.uuid ·)).take k, Removal e.uuid o :=
    fun o ho => removals w.path o (List.mem_of_mem_take ho)
  obtain ⟨h1, h2, -, -⟩ := removal_spec _ hall w
  have hfile : (w.applyAll ((Op.eraseLog (ρ := ρ) e.uuid :: (List.range w.path).map (.erase e.uuid ·)).take k)).files e.uuid p = some r := by
    cases k with
    | zero => exact hr
    | succ k =>
      rw [List.take_succ_cons, ← List.map_take, List.take_range]
      rw [(drop_dir w e.uuid _).2 p, if_neg]
      · exact hr
      · rw [List.mem_range]
        omega
  generalize w.applyAll ((Op.eraseLog (ρ := ρ) e.uuid :: (List.range w.path).map (.erase e.uuid ·)).take k) = w' at *
  have hu : e.uuid < (w'.apply (.forget n)).uuid := Nat.lt_of_lt_of_le (hw.fresh _ (key_of_find hf)) h2.uuid
  obtain ⟨-, h5, h6⟩ := C143_stray_forever E (w'.apply (.forget n)) e.uuid hu (not_owned_drop hw (key_of_find hf) w' h1) later
  refine ⟨trivial, ?_, h6⟩
  exact (congrFun h5 p).trans hfile

theorem put_first (u : Nat) (c : List ρ) (cs : List (List ρ)) (w : World ρ) :
    (w.applyAll (puts u w.path (c :: cs))).files u w.path = some c := by
  have h := puts_spec u cs (w.apply (.put u w.path c))
  have hp : (w.apply (.put u w.path c)).path = w.path + 1 := by simp [World.apply]
  have he : (w.apply (.put u w.path c)).applyAll (puts u (w.apply (.put u w.path c)).path cs) =
      w.applyAll (puts u w.path (c :: cs)) := by
    rw [hp]
    rfl
  rw [he] at h
  rw [h.old w.path (by omega)]
  simp [World.apply, set]

/-- Uploads that no entry of the log names. -/
theorem upload_lost {E : Env ρ} (hE : E.Sound) (before : List (Stmt ρ × Fault)) {n : String} {e : Entry}
    (hl : (after E before).look n = some e) {cs : List (List ρ)} {post : List (Op ρ)} {k : Nat} (h1 : 1 ≤ k) (h2 : k ≤ cs.length)
    (f : Fault) (hf : f = .error k ∨ f = .crash k) (hpost : post ≠ []) (later : List (Stmt ρ × Fault)) (hs : ∀ s ∈ later, s.1.Keeps n) :
    ((after E before).carry ⟨[], puts e.uuid (after E before).path cs ++ post, .ok⟩ f).2 = .failed ∧
    ∃ p r, (((after E before).carry ⟨[], puts e.uuid (after E before).path cs ++ post, .ok⟩ f).1.run E later).1.files e.uuid p = some r ∧
      ∀ c ∈ (((after E before).carry ⟨[], puts e.uuid (after E before).path cs ++ post, .ok⟩ f).1.run E later).1.log e.uuid, p ∉ c.adds := by
  obtain ⟨d, -, hw⟩ := run_fits hE before (w := World.empty) sim_empty
  change Sim (after E before) d at hw
  have hpair : Paired (after E before) := run_paired E before (w := World.empty) paired_empty
  generalize after E before = w at *
  have hlen : k < (puts e.uuid w.path cs ++ post).length := by
    have : 0 < post.length := List.length_pos_iff.2 hpost
    rw [List.length_append, puts_length]
    omega
  have hcarry : w.carry ⟨[], puts e.uuid w.path cs ++ post, .ok⟩ f = (w.applyAll (puts e.uuid w.path (cs.take k)), .failed) := by
    have ht : (puts e.uuid w.path cs ++ post).take k = puts e.uuid w.path (cs.take k) := by
      rw [List.take_append_of_le_length (by rw [puts_length]; exact h2), puts_take]
    rcases hf with rfl | rfl <;> simp only [World.carry, List.nil_append, List.length_nil, Nat.not_lt_zero, if_false, if_pos hlen, ht]
  rw [hcarry]
  refine ⟨rfl, ?_⟩
  obtain ⟨hfd, hne⟩ := st_look_find hl
  cases cs with
  | nil => simp at h2; omega
  | cons c cs =>
    cases k with
    | zero => omega
    | succ k =>
      rw [List.take_succ_cons]
      have hU := puts_spec e.uuid (c :: cs.take k) w
      have hsim := hU.sim hw
      have hadds : ∀ x ∈ w.log e.uuid, ∀ p ∈ x.adds, p < w.path := by
        rcases hw.find n with ⟨hf', -⟩ | ⟨e', a, hf', -, -, -, hok, -⟩
        · rw [hf'] at hfd; cases hfd
        · rw [hf'] at hfd
          cases hfd
          cases ha : a.intact with
          | false => exact absurd (hok.broken ha) hne
          | true => exact (hok.good ha).paths
      have hlost : Lost (w.applyAll (puts e.uuid w.path (c :: cs.take k))) e.uuid w.path c := by
        refine ⟨hU.below w.path (by simp [names]), put_first e.uuid c _ w, ?_⟩
        rw [hU.log]
        intro x hx
        refine ⟨fun hp => Nat.lt_irrefl _ (hadds x hx _ hp), fun hp => ?_⟩
        obtain ⟨x', hx', hp'⟩ := hpair _ x hx _ hp
        exact Nat.lt_irrefl _ (hadds x' hx' _ hp')
      have hk : (n, e.uuid) ∈ (w.applyAll (puts e.uuid w.path (c :: cs.take k))).keys := by
        have := key_of_find hfd
        simpa [World.keys, hU.entries] using this
      have := run_lost hE later hsim hlost hk hs
      exact ⟨w.path, c, this.here, fun x hx => (this.unnamed x hx).1⟩

/-- **C143 is violated (INSERT that fails)**: an INSERT that fails once a file is uploaded leaves it behind.  No version of the table has
it, and until the table is dropped nothing removes it, in particular no VACUUM. -/
theorem C143_violated_insert_always {E : Env ρ} (hE : E.Sound) (before : List (Stmt ρ × Fault)) (n : String) (q : Query ρ) {rows : List ρ}
    {e : Entry} (hq : (after E before).query q = some rows) (hl : (after E before).look n = some e) {k : Nat} (h1 : 1 ≤ k)
    (h2 : k ≤ (E.cut rows).length) (f : Fault) (hf : f = .error k ∨ f = .crash k) (later : List (Stmt ρ × Fault))
    (hs : ∀ s ∈ later, s.1.Keeps n) :
    ((after E before).exec E (.insert n q) f).2 = .failed ∧
    ∃ p r, (((after E before).exec E (.insert n q) f).1.run E later).1.files e.uuid p = some r ∧
      ∀ c ∈ (((after E before).exec E (.insert n q) f).1.run E later).1.log e.uuid, p ∉ c.adds := by
  simp only [World.exec, World.plan, hq, hl, store]
  exact upload_lost hE before hl h1 h2 f hf (by simp) later hs

/-- **C143 is violated (UPDATE and DELETE that fail)**: likewise. -/
theorem C143_violated_modify_always {E : Env ρ} (hE : E.Sound) (before : List (Stmt ρ × Fault)) (n : String) (p : ρ → Bool)
    (g : ρ → Option ρ) {rows : List ρ} {e : Entry} (hl : (after E before).look n = some e)
    (hr : readAll ((after E before).files e.uuid)
      (touched E ((after E before).files e.uuid) p (live ((after E before).log e.uuid))) = some rows)
    (ht : touched E ((after E before).files e.uuid) p (live ((after E before).log e.uuid)) ≠ []) {k : Nat} (h1 : 1 ≤ k)
    (h2 : k ≤ (E.cut (rows.filterMap (change p g))).length) (f : Fault) (hf : f = .error k ∨ f = .crash k)
    (later : List (Stmt ρ × Fault)) (hs : ∀ s ∈ later, s.1.Keeps n) :
    ((after E before).exec E (.modify n p g) f).2 = .failed ∧
    ∃ x r, (((after E before).exec E (.modify n p g) f).1.run E later).1.files e.uuid x = some r ∧
      ∀ c ∈ (((after E before).exec E (.modify n p g) f).1.run E later).1.log e.uuid, x ∉ c.adds := by
  have ht' : (touched E ((after E before).files e.uuid) p (live ((after E before).log e.uuid))).isEmpty = false := by
    simpa using ht
  simp only [World.exec, World.plan, hl, hr, ht', Bool.false_eq_true, if_false]
  exact upload_lost hE before hl h1 h2 f hf (by simp) later hs

/-! ### examples -/

theorem demo_sound : demo.Sound := by
  refine ⟨fun rows => by simp [demo], ?_⟩
  intro p rows h x hx
  simp only [demo, List.any_eq_false] at h
  simpa using h x hx

/-- Statements of `C143_partial`: something is stored. -/
def tidy : List (Stmt Nat × Fault) :=
  [(.createAs "t" (values [1, 2]), .none), (.insert "t" (values [3]), .none), (.truncate "t", .none), (.insert "t" (values [4]), .none),
   (.create "u", .none), (.drop "u", .none), (.rename "t" "v", .none)]

example : Tidy demo World.empty tidy := by
  have h : (World.empty.run demo tidy).2 = [.ok, .ok, .ok, .ok, .ok, .ok, .ok] := by decide +kernel
  refine ⟨by simp [tidy], ?_⟩
  rw [h]
  simp [tidy]

example : (after demo tidy).Occupied 0 ∧ ¬ (after demo tidy).Occupied 1 := by
  refine ⟨.inr ⟨0, by decide +kernel⟩, ?_⟩
  rintro (h | ⟨p, hp⟩)
  · exact h (by decide +kernel)
  · have : p < (after demo tidy).path := run_bounded demo tidy bounded_empty 1 p hp
    have h3 : (after demo tidy).path = 3 := by decide +kernel
    rw [h3] at this
    match p, this with
    | 0, _ => exact hp (by decide +kernel)
    | 1, _ => exact hp (by decide +kernel)
    | 2, _ => exact hp (by decide +kernel)

/-- `C143_vacuum_partial`: of three files one is left. -/
example : ((after demo tidy).look "v").map (·.uuid) = some 0 ∧ (List.range 3).map ((after demo tidy).files 0) = [some [1, 2], some [3], some [4]] ∧
    (List.range 3).map (((after demo tidy).exec demo (.vacuum "v") .none).1.files 0) = [none, none, some [4]] := by
  decide +kernel

/-- `C143_violated_create_always`: the name is taken, the new directory has the number 1. -/
example : (after demo [(.create "t", .none)]).find "t" ≠ none ∧
    ((after demo [(.create "t", .none), (.create "t", .none), (.drop "t", .none)]).log 1).length = 1 := by
  decide +kernel

/-- `C143_violated_insert_always`: the file of the failed INSERT is there after a VACUUM. -/
example : let w := after demo [(.create "t", .none), (.insert "t" (values [1]), .error 1), (.insert "t" (values [2]), .none), (.truncate "t", .none),
      (.vacuum "t", .none)]
    (List.range 2).map (w.files 0) = [some [1], none] := by
  decide +kernel

/-- `C143_violated_modify_always`: the hypotheses. -/
example : let w := after demo [(.createAs "t" (values [1, 2]), .none)]
    (w.look "t").map (·.uuid) = some 0 ∧ touched demo (w.files 0) (· == 1) (live (w.log 0)) = [0] ∧
    readAll (w.files 0) [0] = some [1, 2] ∧ (demo.cut ([1, 2].filterMap (change (· == 1) fun _ => none))).length = 1 := by
  decide +kernel

/-- `C143_violated_drop_always`: the deletion fails after the log. -/
example : let w := after demo [(.createAs "t" (values [1, 2]), .none)]
    (w.find "t").map (·.uuid) = some 0 ∧ w.files 0 0 = some [1, 2] ∧ (w.exec demo (.drop "t") (.error 1)).1.files 0 0 = some [1, 2] := by
  decide +kernel

end Seafowl.Database
