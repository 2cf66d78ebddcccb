import Verif.Context.DatabaseInv

/-!
C130: for a client the server is a database - a set of named tables with their rows and their history - on which every
statement has the effect it says, or none.
-/

namespace Seafowl.Database

variable {ρ : Type}

/-! ### without failures -/

structure Match (d : Db ρ) (i : Ideal ρ) : Prop where
  all : ∀ n, (i n = none ∧ d.find n = none) ∨
    ∃ a τ r r', d.find n = some a ∧ a.intact = true ∧ a.hist.getLast? = some (τ, r) ∧ i n = some r' ∧ r.Perm r'

theorem Match.none_iff {d : Db ρ} {i : Ideal ρ} (h : Match d i) {n : String} : i n = none ↔ d.find n = none := by
  rcases h.all n with ⟨h1, h2⟩ | ⟨a, τ, r, r', h1, -, -, h4, -⟩
  · simp [h1, h2]
  · simp [h1, h4]

theorem Match.usable {d : Db ρ} {i : Ideal ρ} (h : Match d i) {n : String} : d.Usable n ↔ i n ≠ none := by
  rcases h.all n with ⟨h1, h2⟩ | ⟨a, τ, r, r', h1, h2, -, h4, -⟩
  · simp [Db.Usable, h1, h2]
  · simp [Db.Usable, h1, h2, h4]

theorem Match.current {d : Db ρ} {i : Ideal ρ} (h : Match d i) {n : String} {r : List ρ} (hc : d.current n r) :
    ∃ r', i n = some r' ∧ r.Perm r' := by
  obtain ⟨a, τ, h1, h2, h3⟩ := hc
  rcases h.all n with ⟨-, h5⟩ | ⟨a', τ', r1, r', h4, -, h6, h7, h8⟩
  · rw [h1] at h5
    cases h5
  · rw [h1] at h4
    cases h4
    rw [h3] at h6
    cases h6
    exact ⟨r', h7, h8⟩

theorem Match.reads_some {d : Db ρ} {i : Ideal ρ} (h : Match d i) {x : String × Option Nat} (hx : x.2 = none) {r : List ρ}
    (hr : Reads d x (some r)) : ∃ r', i x.1 = some r' ∧ r.Perm r' := by
  cases hr with
  | current h1 h2 h3 h4 =>
    obtain ⟨r', h5, h6⟩ := h.current ⟨_, _, h1, h2, h3⟩
    exact ⟨r', h5, h4.trans h6⟩
  | past => cases hx
  | early => cases hx

theorem Match.reads_none {d : Db ρ} {i : Ideal ρ} (h : Match d i) {x : String × Option Nat} (hx : x.2 = none)
    (hr : Reads d x none) : i x.1 = none := by
  cases hr with
  | unusable h1 =>
    rw [h.usable] at h1
    exact Classical.byContradiction h1
  | gone => cases hx
  | earlyGone => cases hx

theorem Match.answer_some {d : Db ρ} {i : Ideal ρ} (h : Match d i) {q : Query ρ} (hq : q.Now) {r : List ρ}
    (hr : Answer d q (some r)) : ∃ r', i.answer q = some r' ∧ r.Perm r' := by
  obtain ⟨xs, h1, rfl⟩ := hr
  have key : ∀ l : List (String × Option Nat), (∀ x ∈ l, x.2 = none) → ∀ xs, List.Forall₂ (fun a x => Reads d a (some x)) l xs →
      ∃ ys, l.mapM (fun x => i x.1) = some ys ∧ List.Forall₂ List.Perm xs ys := by
    intro l hl xs hxs
    induction hxs with
    | nil => exact ⟨[], rfl, .nil⟩
    | cons h2 _ ih =>
      obtain ⟨ys, h3, h4⟩ := ih fun x hx => hl x (List.mem_cons_of_mem _ hx)
      obtain ⟨r', h5, h6⟩ := h.reads_some (hl _ List.mem_cons_self) h2
      refine ⟨r' :: ys, ?_, .cons h6 h4⟩
      rw [List.mapM_cons, h5, h3]
      rfl
  obtain ⟨ys, h2, h3⟩ := key _ hq xs h1
  exact ⟨q.eval ys, by simp [Ideal.answer, h2], q.order _ _ h3⟩

theorem Match.answer_none {d : Db ρ} {i : Ideal ρ} (h : Match d i) {q : Query ρ} (hq : q.Now)
    (hr : Answer d q none) : i.answer q = none := by
  obtain ⟨a, h1, h2⟩ := hr
  have h3 := h.reads_none (hq a h1) h2
  have key : ∀ l : List (String × Option Nat), a ∈ l → l.mapM (fun x => i x.1) = none := by
    intro l
    induction l with
    | nil => intro hm; simp at hm
    | cons b l ih =>
      intro hm
      rw [List.mapM_cons]
      rcases List.mem_cons.1 hm with rfl | hm
      · rw [h3]
        rfl
      · rw [ih hm]
        cases i b.1 <;> rfl
  simp [Ideal.answer, key _ h1]

theorem find_alter (d : Db ρ) (n m : String) (f : Tab ρ → Tab ρ) (hf : ∀ a, (f a).name = a.name) :
    (d.alter n f).find m = if m = n then (d.find n).map f else d.find m := by
  induction d with
  | nil => simp [Db.alter, Db.find]
  | cons a d ih =>
    simp only [Db.alter, Db.find, List.map_cons, List.find?_cons] at ih ⊢
    by_cases hn : a.name = n
    · simp only [hn, if_true, hf]
      by_cases hm : m = n
      · simp [hm]
      · have : (n == m) = false := by simpa using Ne.symm hm
        simp only [this, hm, if_false]
        simpa [hm] using ih
    · simp only [hn, if_false]
      by_cases hm : m = n
      · subst hm
        have : (a.name == m) = false := by simpa using hn
        simp only [this]
        simpa using ih
      · simp only [hm, if_false] at ih ⊢
        rw [ih]

theorem match_alter {d : Db ρ} {i : Ideal ρ} (h : Match d i) {n : String} {f : Tab ρ → Tab ρ} (hf : ∀ a, (f a).name = a.name)
    {r' : List ρ} (hn : d.find n ≠ none)
    (hr : ∀ a, d.find n = some a → (f a).intact = true ∧ ∃ τ r, (f a).hist.getLast? = some (τ, r) ∧ r.Perm r') :
    Match (d.alter n f) (i.put n (some r')) := by
  constructor
  intro m
  rw [find_alter d n m f hf]
  by_cases hm : m = n
  · right
    subst hm
    obtain ⟨a, ha⟩ := Option.ne_none_iff_exists'.1 hn
    obtain ⟨h1, τ, r, h2, h3⟩ := hr a ha
    exact ⟨f a, τ, r, r', by simp [ha], h1, h2, by simp [Ideal.put], h3⟩
  · simp only [hm, if_false, Ideal.put]
    exact h.all m

theorem match_append {d : Db ρ} {i : Ideal ρ} (h : Match d i) {n : String} (hn : d.find n = none) {a : Tab ρ} (ha : a.name = n)
    (hi : a.intact = true) {τ : Nat} {r r' : List ρ} (hr : a.hist.getLast? = some (τ, r)) (hp : r.Perm r') :
    Match (d ++ [a]) (i.put n (some r')) := by
  constructor
  intro m
  have hfind : Db.find (d ++ [a]) m = (d.find m).or (if a.name = m then some a else none) := by
    show List.find? _ (d ++ [a]) = _
    rw [List.find?_append]
    simp only [Db.find, List.find?_cons, List.find?_nil]
    by_cases hm : a.name = m
    · simp [hm]
    · have : (a.name == m) = false := by simpa using hm
      simp [hm, this]
  by_cases hm : m = n
  · right
    refine ⟨a, τ, r, r', ?_, hi, hr, by simp [Ideal.put, hm], hp⟩
    rw [hfind, hm, hn, ha]
    simp
  · rw [hfind, ha, if_neg (Ne.symm hm), Option.or_none]
    simp only [Ideal.put, hm, if_false]
    exact h.all m

theorem find_filter (d : Db ρ) (n m : String) :
    Db.find (d.filter fun a => a.name != n) m = if m = n then none else d.find m := by
  induction d with
  | nil => simp [Db.find]
  | cons a d ih =>
    simp only [Db.find] at ih ⊢
    rw [List.filter_cons]
    by_cases hn : a.name = n
    · simp only [hn, bne_self_eq_false, Bool.false_eq_true, if_false, ih, List.find?_cons]
      by_cases hm : m = n
      · simp [hm]
      · have : (n == m) = false := by simpa using Ne.symm hm
        simp [hm, this]
    · have : (a.name != n) = true := by simpa using hn
      simp only [this, if_true, List.find?_cons, ih]
      by_cases hm : m = n
      · subst hm
        have : (a.name == m) = false := by simpa using hn
        simp [this]
      · simp [hm]

theorem find_rename (d : Db ρ) (n m x : String) (hm : d.find m = none) :
    (d.alter n fun a => { a with name := m }).find x =
      if x = m then (d.find n).map (fun a => { a with name := m }) else if x = n then none else d.find x := by
  induction d with
  | nil => simp [Db.alter, Db.find]
  | cons a d ih =>
    simp only [Db.find, List.find?_cons] at hm
    split at hm
    · cases hm
    · next hne =>
      have hne : a.name ≠ m := by simpa using hne
      have ih := ih hm
      simp only [Db.alter, Db.find, List.map_cons, List.find?_cons] at ih ⊢
      by_cases hn : a.name = n
      · simp only [hn, if_true, beq_self_eq_true, Option.map_some]
        by_cases hx : x = m
        · simp [hx]
        · have : (m == x) = false := by simpa using Ne.symm hx
          simp only [this, hx, if_false]
          rw [ih]
          simp only [hx, if_false]
          by_cases hxn : x = n
          · simp [hxn]
          · have : (n == x) = false := by simpa using Ne.symm hxn
            simp [hxn, this]
      · simp only [hn, if_false]
        have e1 : (a.name == n) = false := by simpa using hn
        simp only [e1]
        by_cases hx : x = m
        · have : (a.name == x) = false := by simpa [hx] using hne
          simp only [this]
          simpa [hx] using ih
        · simp only [hx, if_false] at ih ⊢
          by_cases hxn : x = n
          · have : (a.name == x) = false := by simpa [hxn] using hn
            rw [this]
            simp only [ih]
          · simp only [hxn, if_false] at ih ⊢
            rw [ih]

/-- A statement without failure and time travel. -/
theorem step_ideal {d d' : Db ρ} {i : Ideal ρ} {t t' : Nat} {s : Stmt ρ} {res : Res ρ} (h : Match d i) (hs : s.Now)
    (hstep : Step d t s false res d' t') : Alike res (i.exec s).2 ∧ Match d' (i.exec s).1 := by
  cases hstep with
  | nothing hb => cases hb
  | half hb => cases hb
  | late hb => cases hb
  | rows he hr =>
    subst he
    obtain ⟨r', h1, h2⟩ := h.answer_some hs hr
    simp only [Ideal.exec, h1]
    exact ⟨.rows h2, h⟩
  | refused hr _ =>
    cases s with
    | create n =>
      obtain ⟨r, hi⟩ := Option.ne_none_iff_exists'.1 (fun he => hr (h.none_iff.1 he))
      simp only [Ideal.exec, hi]
      exact ⟨.refused, h⟩
    | createAs n q =>
      simp only [Ideal.exec]
      rcases hr with hr | hr
      · obtain ⟨r, hi⟩ := Option.ne_none_iff_exists'.1 (fun he => hr (h.none_iff.1 he))
        simp only [hi]
        exact ⟨.refused, h⟩
      · rw [h.answer_none hs hr]
        split
        · next h1 => cases h1
        · exact ⟨.refused, h⟩
    | insert n q =>
      simp only [Ideal.exec]
      rcases hr with hr | hr
      · have hi : i n = none := Classical.byContradiction fun he => hr (h.usable.2 he)
        simp only [hi]
        exact ⟨.refused, h⟩
      · rw [h.answer_none hs hr]
        split
        · next h1 => cases h1
        · exact ⟨.refused, h⟩
    | modify n p g =>
      have hi : i n = none := Classical.byContradiction fun he => hr (h.usable.2 he)
      simp only [Ideal.exec, hi]
      exact ⟨.refused, h⟩
    | truncate n =>
      have hi : i n = none := Classical.byContradiction fun he => hr (h.usable.2 he)
      simp only [Ideal.exec, hi]
      exact ⟨.refused, h⟩
    | vacuum n =>
      have hi : i n = none := Classical.byContradiction fun he => hr (h.usable.2 he)
      simp only [Ideal.exec, hi]
      exact ⟨.refused, h⟩
    | drop n =>
      have hi : i n = none := h.none_iff.2 hr
      simp only [Ideal.exec, hi]
      exact ⟨.refused, h⟩
    | rename n m =>
      simp only [Ideal.exec]
      rcases hr with hr | hr
      · have hi : i n = none := Classical.byContradiction fun he => hr (h.usable.2 he)
        simp only [hi]
        exact ⟨.refused, h⟩
      · obtain ⟨r, hi⟩ := Option.ne_none_iff_exists'.1 (fun he => hr (h.none_iff.1 he))
        split
        · next h1 =>
          rw [hi] at h1
          cases h1
        · exact ⟨.refused, h⟩
    | select q =>
      simp only [Ideal.exec, h.answer_none hs hr]
      exact ⟨.refused, h⟩
    | wait k => exact hr.elim
  | ok he =>
    cases he with
    | create hn _ _ =>
      simp only [Ideal.exec, h.none_iff.2 hn]
      exact ⟨.ok, match_append h hn rfl rfl rfl (.refl _)⟩
    | createAs hn hq _ _ _ =>
      obtain ⟨r', h1, h2⟩ := h.answer_some hs hq
      simp only [Ideal.exec, h.none_iff.2 hn, h1]
      exact ⟨.ok, match_append h hn rfl rfl rfl h2⟩
    | insert hc hq _ _ =>
      obtain ⟨r', h1, h2⟩ := h.answer_some hs hq
      obtain ⟨r1, h3, h4⟩ := h.current hc
      simp only [Ideal.exec, h1, h3]
      obtain ⟨a, τ, h5, h6, -⟩ := hc
      refine ⟨.ok, match_alter h ?_ (Option.ne_none_iff_exists'.2 ⟨a, h5⟩) ?_⟩
      · exact fun _ => rfl
      intro a' ha'
      rw [h5] at ha'
      cases ha'
      exact ⟨h6, _, _, List.getLast?_concat, h4.append h2⟩
    | modify hc _ _ =>
      obtain ⟨r1, h3, h4⟩ := h.current hc
      simp only [Ideal.exec, h3]
      obtain ⟨a, τ, h5, h6, -⟩ := hc
      refine ⟨.ok, match_alter h ?_ (Option.ne_none_iff_exists'.2 ⟨a, h5⟩) ?_⟩
      · exact fun _ => rfl
      intro a' ha'
      rw [h5] at ha'
      cases ha'
      exact ⟨h6, _, _, List.getLast?_concat, h4.filterMap _⟩
    | truncate hu _ _ =>
      obtain ⟨r, hi⟩ := Option.ne_none_iff_exists'.1 (h.usable.1 hu)
      simp only [Ideal.exec, hi]
      obtain ⟨a, h5, h6⟩ := hu
      refine ⟨.ok, match_alter h ?_ (Option.ne_none_iff_exists'.2 ⟨a, h5⟩) ?_⟩
      · exact fun _ => rfl
      intro a' ha'
      rw [h5] at ha'
      cases ha'
      exact ⟨h6, _, _, List.getLast?_concat, .refl _⟩
    | @vacuum n r more hc _ hmore =>
      obtain ⟨r1, h3, h4⟩ := h.current hc
      simp only [Ideal.exec, h3]
      obtain ⟨a, τ, h5, h6, h7⟩ := hc
      have e : i = i.put n (some r1) := by
        funext m
        simp only [Ideal.put]
        split
        · next he => rw [he, h3]
        · rfl
      rw [e]
      refine ⟨.ok, match_alter h ?_ (Option.ne_none_iff_exists'.2 ⟨a, h5⟩) ?_⟩
      · exact fun _ => rfl
      intro a' ha'
      rw [h5] at ha'
      cases ha'
      refine ⟨h6, ?_⟩
      simp only [List.getLast?_append]
      cases hm : more.getLast? with
      | none => exact ⟨τ, r, by simp [h7], h4⟩
      | some x =>
        have := (hmore x (List.mem_of_getLast? hm)).2.2
        exact ⟨x.1, x.2, by simp, this ▸ h4⟩
    | @drop n hn _ =>
      obtain ⟨r, hi⟩ := Option.ne_none_iff_exists'.1 (fun he => hn (h.none_iff.1 he))
      simp only [Ideal.exec, hi]
      refine ⟨.ok, ⟨fun m => ?_⟩⟩
      rw [find_filter]
      by_cases hm : m = n
      · left
        simp [Ideal.put, hm]
      · simp only [Ideal.put, hm, if_false]
        exact h.all m
    | @rename n m hu hm _ =>
      obtain ⟨r, hi⟩ := Option.ne_none_iff_exists'.1 (h.usable.1 hu)
      simp only [Ideal.exec, hi, h.none_iff.2 hm]
      refine ⟨.ok, ⟨fun x => ?_⟩⟩
      rw [find_rename d n m x hm]
      by_cases hx : x = m
      · right
        rcases h.all n with ⟨h1, -⟩ | ⟨a, τ, r1, r', h1, h2, h3, h4, h5⟩
        · rw [hi] at h1
          cases h1
        · refine ⟨{ a with name := m }, τ, r1, r, by simp [hx, h1], h2, h3, by simp [Ideal.put, hx], ?_⟩
          rw [hi] at h4
          cases h4
          exact h5
      · simp only [hx, if_false, Ideal.put]
        by_cases hxn : x = n
        · left
          simp [hxn]
        · simp only [hxn, if_false]
          exact h.all x
    | wait _ => exact ⟨.ok, h⟩

theorem steps_ideal {sts : List (Stmt ρ)} : ∀ {d d' : Db ρ} {i : Ideal ρ} {t t' : Nat} {rs : List (Res ρ)}, Match d i →
    (∀ s ∈ sts, s.Now) → Steps d t (sts.map fun s => (s, .none)) rs d' t' → List.Forall₂ Alike rs (i.run sts) := by
  induction sts with
  | nil =>
    intro d d' i t t' rs _ _ h
    cases h
    exact .nil
  | cons s sts ih =>
    intro d d' i t t' rs hm hn h
    cases h with
    | cons h1 h2 =>
      obtain ⟨h3, h4⟩ := step_ideal hm (hn s List.mem_cons_self) h1
      exact .cons h3 (ih h4 (fun x hx => hn x (List.mem_cons_of_mem _ hx)) h2)

/-! ### time travel -/

/-- The table has at most got newer versions. -/
def Newer (d d' : Db ρ) (n : String) (t : Nat) : Prop :=
  ∀ a, d.find n = some a → ∃ more, d'.find n = some { a with hist := a.hist ++ more } ∧ ∀ x ∈ more, t ≤ x.1

theorem Newer.refl (d : Db ρ) (n : String) (t : Nat) : Newer d d n t :=
  fun a ha => ⟨[], by simpa using ha, by simp⟩

theorem Newer.trans {d d' d'' : Db ρ} {n : String} {t t' : Nat} (h : Newer d d' n t) (h' : Newer d' d'' n t') (ht : t ≤ t') :
    Newer d d'' n t := by
  intro a ha
  obtain ⟨m1, h1, h2⟩ := h a ha
  obtain ⟨m2, h3, h4⟩ := h' _ h1
  refine ⟨m1 ++ m2, ?_, ?_⟩
  · rw [h3]
    simp
  · intro x hx
    rcases List.mem_append.1 hx with hx | hx
    · exact h2 x hx
    · exact Nat.le_trans ht (h4 x hx)

theorem newer_push (d : Db ρ) (n m : String) (t τ : Nat) (r : List ρ) (ht : t ≤ τ) : Newer d (d.alter m (·.push τ r)) n t := by
  intro a ha
  rw [find_alter d m n (·.push τ r) fun _ => rfl]
  by_cases hn : n = m
  · subst hn
    exact ⟨[(τ, r)], by simp [ha, Tab.push], by simpa using ht⟩
  · exact ⟨[], by simpa [hn] using ha, by simp⟩

theorem newer_other (d : Db ρ) {n m : String} (t : Nat) (f : Tab ρ → Tab ρ) (hf : ∀ a, (f a).name = a.name) (hm : m ≠ n) :
    Newer d (d.alter m f) n t := by
  intro a ha
  rw [find_alter d m n f hf]
  exact ⟨[], by simpa [Ne.symm hm] using ha, by simp⟩

theorem newer_append (d : Db ρ) (n : String) (t : Nat) (b : Tab ρ) : Newer d (d ++ [b]) n t := by
  intro a ha
  refine ⟨[], ?_, by simp⟩
  have : List.find? (fun a => a.name == n) d = some a := ha
  show List.find? _ (d ++ [b]) = _
  rw [List.find?_append, this]
  simp

theorem effect_newer {d d' : Db ρ} {n : String} {t t' : Nat} {s : Stmt ρ} (hs : s.Spares n) (h : Effect d t t' s d') :
    Newer d d' n t ∧ t ≤ t' := by
  cases h with
  | create _ h1 h2 => exact ⟨newer_append _ _ _ _, by omega⟩
  | createAs _ _ h1 h2 h3 => exact ⟨newer_append _ _ _ _, by omega⟩
  | insert _ _ h1 h2 => exact ⟨newer_push _ _ _ _ _ _ h1, by omega⟩
  | modify _ h1 h2 => exact ⟨newer_push _ _ _ _ _ _ h1, by omega⟩
  | truncate _ h1 h2 => exact ⟨newer_push _ _ _ _ _ _ h1, by omega⟩
  | vacuum _ h1 _ => exact ⟨newer_other _ _ _ (fun _ => rfl) hs, h1⟩
  | drop _ h1 =>
    refine ⟨?_, h1⟩
    intro a ha
    rw [find_filter]
    exact ⟨[], by simpa [Ne.symm hs] using ha, by simp⟩
  | @rename m m' hu hm h1 =>
    refine ⟨?_, h1⟩
    intro a ha
    rw [find_rename d m m' n hm]
    have h2 : n ≠ m' := by
      rintro rfl
      rw [hm] at ha
      cases ha
    exact ⟨[], by simpa [Ne.symm hs, h2] using ha, by simp⟩
  | wait h1 => exact ⟨Newer.refl _ _ _, by omega⟩

theorem step_newer {d d' : Db ρ} {n : String} {t t' : Nat} {s : Stmt ρ} {bad : Bool} {res : Res ρ} (hs : s.Spares n)
    (h : Step d t s bad res d' t') : Newer d d' n t ∧ t ≤ t' := by
  cases h with
  | ok he => exact effect_newer hs he
  | rows => exact ⟨Newer.refl _ _ _, Nat.le_refl _⟩
  | refused _ h1 => exact ⟨Newer.refl _ _ _, h1⟩
  | nothing _ h1 => exact ⟨Newer.refl _ _ _, h1⟩
  | late _ he => exact effect_newer hs he
  | half _ hh =>
    cases hh with
    | createAs _ h1 h2 => exact ⟨newer_append _ _ _ _, by omega⟩
    | drop _ h1 => exact ⟨newer_other _ _ _ (fun _ => rfl) hs, h1⟩

theorem steps_newer {sts : List (Stmt ρ × Fault)} {n : String} : ∀ {d d' : Db ρ} {t t' : Nat} {rs : List (Res ρ)},
    (∀ s ∈ sts, s.1.Spares n) → Steps d t sts rs d' t' → Newer d d' n t := by
  induction sts with
  | nil =>
    intro d d' t t' rs _ h
    cases h
    exact Newer.refl _ _ _
  | cons s sts ih =>
    intro d d' t t' rs hs h
    cases h with
    | cons h1 h2 =>
      obtain ⟨h3, h4⟩ := step_newer (hs _ List.mem_cons_self) h1
      exact h3.trans (ih (fun x hx => hs x (List.mem_cons_of_mem _ hx)) h2) h4

/-! ### the theorems -/

/-- **C130_partial.**  Whatever statements a client sends, and whatever fails or stops in them: the answers are those of a
database.  A statement that succeeds has its effect, one that is refused could not be executed, and a SELECT returns the rows the
tables have, or had at the time asked for.  A statement that fails has no effect or its whole effect.  Missing: a CREATE TABLE AS
that fails may leave an empty table, and a DROP TABLE that fails one that cannot be used (`Half`). -/
theorem C130_partial {E : Env ρ} (hE : E.Sound) (sts : List (Stmt ρ × Fault)) :
    ∃ d t, Steps [] 0 sts (World.empty.run E sts).2 d t := by
  obtain ⟨d, h, -⟩ := run_fits hE sts sim_empty
  exact ⟨d, _, h⟩

/-- **C130, without failures.**  Statements without time travel are answered like by a map from names to rows. -/
theorem C130_ideal {E : Env ρ} (hE : E.Sound) (sts : List (Stmt ρ)) (hs : ∀ s ∈ sts, s.Now) :
    List.Forall₂ Alike (World.empty.run E (sts.map fun s => (s, .none))).2 (Ideal.run (fun _ => none) sts) := by
  obtain ⟨d, h, -⟩ := run_fits hE (sts.map fun s => (s, .none)) sim_empty
  exact steps_ideal ⟨fun _ => .inl ⟨rfl, rfl⟩⟩ hs h

/-- **C130, time travel.**  A table at a time in the past has the rows it had then, whatever was done and went wrong since, unless
it was vacuumed, dropped or renamed. -/
theorem C130_travel {E : Env ρ} (hE : E.Sound) (before after : List (Stmt ρ × Fault)) (n : String) (r : List ρ)
    (hs : ∀ s ∈ after, s.1.Spares n) :
    let w1 := (World.empty.run E before).1
    let w2 := (w1.run E after).1
    w1.read (n, none) = some r → ∃ r', w2.read (n, some (w1.now - 1)) = some r' ∧ r'.Perm r := by
  intro w1 w2 hr
  obtain ⟨d1, -, h1⟩ := run_fits hE before sim_empty
  obtain ⟨d2, h2, h3⟩ := run_fits hE after h1
  have hnew := steps_newer hs h2
  cases hl : w1.look n with
  | none =>
    simp only [World.read, hl] at hr
    cases hr
  | some e =>
    obtain ⟨a, hf, hd, hi, hm, hk, -, hg⟩ := Sim.look_some h1 hl
    obtain ⟨τ, rr, r0, h4, h5, h6⟩ := hg.current
    have hpos : 0 < (w1.log e.uuid).length := List.length_pos_iff.2 hg.ne
    have hlen := hg.len
    have hr0 : r0 = r := by
      simp only [World.read, hl, World.rowsAt, World.latest] at hr
      rw [List.take_of_length_le (by omega)] at hr
      exact Option.some.inj (h5.symm.trans hr)
    subst hr0
    obtain ⟨more, h7, h8⟩ := hnew a hd
    have hkept := hg.kept
    have hpast : ∀ x ∈ a.hist, x.1 < w1.now := by
      intro x hx
      have hmem : x.1 ∈ (w1.log e.uuid).map (·.time) := by
        rw [hg.times]
        exact List.mem_map_of_mem hx
      obtain ⟨c, hc, he⟩ := List.mem_map.1 hmem
      rw [← he]
      exact hg.past c hc
    have hlast : a.hist[a.hist.length - 1]? = some (τ, rr) := by rw [← List.getLast?_eq_getElem?, h4]
    have hlt := hpast (τ, rr) (List.mem_of_getLast? h4)
    simp only at hlt
    have hlast' : (a.hist ++ more)[a.hist.length - 1]? = some (τ, rr) := by
      rw [List.getElem?_append_left (by omega), hlast]
    have hasof : AsOf (a.hist ++ more) (w1.now - 1) (a.hist.length - 1) := by
      refine ⟨(τ, rr), hlast', by simp only; omega, ?_⟩
      intro v x hx hxt
      by_cases hv : v < a.hist.length
      · omega
      · rw [List.getElem?_append_right (by omega)] at hx
        have := h8 x (List.mem_of_getElem? hx)
        have hw : (World.empty.run E before).1.now = w1.now := rfl
        omega
    have huniq : ∀ v, AsOf (a.hist ++ more) (w1.now - 1) v → v = a.hist.length - 1 := by
      rintro v ⟨x, hx, hxt, hmax⟩
      obtain ⟨y, hy, hyt, hmax'⟩ := hasof
      exact Nat.le_antisymm (hmax' v x hx hxt) (hmax _ y hy hyt)
    have hread := Sim.read h3 (n, some (w1.now - 1))
    change Reads d2 (n, some (w1.now - 1)) (w2.read (n, some (w1.now - 1))) at hread
    have hearly : ¬ ∀ x ∈ a.hist ++ more, w1.now - 1 < x.1 := by
      intro hall
      have := hall (τ, rr) (List.mem_append_left _ (List.mem_of_getLast? h4))
      simp only at this
      omega
    generalize w2.read (n, some (w1.now - 1)) = out at hread
    cases hread with
    | unusable hu => exact absurd ⟨_, h7, hi⟩ hu
    | past g1 g2 g3 g4 g5 =>
      rw [h7] at g1
      cases g1
      rw [huniq _ g3] at g4
      simp only at g4
      rw [hlast'] at g4
      cases g4
      exact ⟨_, rfl, g5.trans h6.symm⟩
    | gone g1 g2 g3 g4 =>
      rw [h7] at g1
      cases g1
      rw [huniq _ g3] at g4
      simp only at g4
      omega
    | early g1 g2 g3 =>
      rw [h7] at g1
      cases g1
      exact absurd g3 hearly
    | earlyGone g1 g2 g3 =>
      rw [h7] at g1
      cases g1
      exact absurd g3 hearly

/-! ### examples -/

/-- One file per statement; files are skipped if no row satisfies the predicate. -/
def demo : Env Nat := ⟨fun r => [r], fun p r => r.any p, true⟩

example : demo.Sound := by
  refine ⟨fun rows => by simp [demo], ?_⟩
  intro p rows h x hx
  simp only [demo, List.any_eq_false] at h
  simpa using h x hx

/-- VALUES -/
def values (r : List Nat) : Query Nat := ⟨[], fun _ => r, fun _ _ _ => .refl _⟩

/-- The rows of a table, at a time. -/
def rowsOf (n : String) (t : Option Nat) : Query Nat :=
  ⟨[(n, t)], fun xs => xs.flatten, fun xs ys h => by
    induction h with
    | nil => exact .refl _
    | cons h1 _ ih => exact h1.append ih⟩

/-- INSERT, DELETE, time travel and a crash: -/
example : (World.empty.run demo
    [(.create "t", .none), (.insert "t" (values [1, 2]), .none), (.insert "t" (values [3]), .crash 0),
     (.modify "t" (· == 2) (fun _ => none), .none), (.select (rowsOf "t" none), .none),
     (.select (rowsOf "t" (some 1)), .none)]).2 =
    [.ok, .ok, .failed, .ok, .rows [1], .rows [1, 2]] := by decide +kernel

/-- RENAME, VACUUM, and a DROP whose deletions fail: -/
example : (World.empty.run demo
    [(.createAs "t" (values [1, 2]), .none), (.truncate "t", .none), (.rename "t" "u", .none), (.vacuum "u", .none),
     (.select (rowsOf "u" (some 1)), .none), (.drop "u", .error 1), (.select (rowsOf "u" none), .none)]).2 =
    [.ok, .ok, .ok, .ok, .refused, .ok, .refused] := by decide +kernel

/-- The statements of `C130_ideal`: -/
example : let sts : List (Stmt Nat) := [.createAs "t" (values [1, 2]), .insert "t" (rowsOf "t" none), .vacuum "t",
      .modify "t" (· == 1) (fun x => some (x + 5)), .select (rowsOf "t" none)]
    (∀ s ∈ sts, s.Now) ∧ Ideal.run (fun _ => none) sts = [.ok, .ok, .ok, .ok, .rows [6, 2, 6, 2]] ∧
    (World.empty.run demo (sts.map fun s => (s, .none))).2 = [.ok, .ok, .ok, .ok, .rows [6, 2, 6, 2]] := by
  refine ⟨?_, by decide +kernel, by decide +kernel⟩
  simp [Stmt.Now, Query.Now, values, rowsOf]

/-- The statements of `C130_travel`: the table has been changed. -/
example : let w1 := (World.empty.run demo [(.createAs "t" (values [1, 2]), .none)]).1
    let after : List (Stmt Nat × Fault) := [(.truncate "t", .error 1), (.drop "u", .none), (.insert "t" (values [3]), .none)]
    (∀ s ∈ after, s.1.Spares "t") ∧ w1.read ("t", none) = some [1, 2] ∧ w1.now = 2 ∧
    (w1.run demo after).1.read ("t", some 1) = some [1, 2] ∧ (w1.run demo after).1.read ("t", none) = some [3] := by
  refine ⟨?_, by decide +kernel, by decide +kernel, by decide +kernel, by decide +kernel⟩
  simp [Stmt.Spares]

/-- **C130 is violated (CREATE TABLE AS)**: one that fails leaves an empty table. -/
theorem C130_violated_create_as : (World.empty.run demo
    [(.createAs "t" (values [1]), .error 3), (.select (rowsOf "t" none), .none)]).2 = [.failed, .rows []] := by
  decide +kernel

/-- **C130 is violated (DROP TABLE)**: one that does not finish leaves a table that cannot be read, although its name is taken. -/
theorem C130_violated_drop : (World.empty.run demo
    [(.createAs "t" (values [1]), .none), (.drop "t", .crash 1), (.select (rowsOf "t" none), .none), (.create "t", .none)]).2 =
    [.ok, .failed, .refused, .refused] := by
  decide +kernel

/-- A statement may fail and yet have its whole effect. -/
theorem C130_late : (World.empty.run demo
    [(.create "t", .none), (.insert "t" (values [1]), .error 2), (.select (rowsOf "t" none), .none)]).2 =
    [.ok, .failed, .rows [1]] := by
  decide +kernel

/-! ### whenever it happens -/

theorem read_new {w : World ρ} {n : String} {u : Nat} (hf : w.find n = some ⟨n, u, [0]⟩) {t : Nat} (hl : w.log u = [⟨t, [], []⟩]) :
    w.read (n, none) = some [] := by
  simp [World.read, World.look, hf, hl, World.rowsAt, World.latest, live, readAll]

theorem find_enter {w : World ρ} {n : String} (hn : w.find n = none) (u : Nat) :
    (w.apply (.enter n u)).find n = some ⟨n, u, [0]⟩ := by
  simp only [World.find] at hn
  simp [World.find, World.apply, List.find?_append, hn]

/-- **C130 is violated (CREATE TABLE AS), always**: whatever the tables, the query and the cause, one that stops after the new
table is in the metastore and before its rows are is reported as failed, and the table exists, without rows. -/
theorem C130_violated_create_as_always (E : Env ρ) (w : World ρ) (n : String) (q : Query ρ) {rows : List ρ}
    (hq : w.query q = some rows) (hn : w.find n = none) {k : Nat} (h1 : 2 ≤ k) (h2 : k ≤ (E.cut rows).length + 2) (f : Fault)
    (hf : f = .error k ∨ f = .crash k) :
    (w.exec E (.createAs n q) f).2 = .failed ∧ (w.exec E (.createAs n q) f).1.read (n, none) = some [] := by
  have hplan : w.plan E (.createAs n q) = ⟨[], [.mk w.uuid, .enter n w.uuid] ++ store E w.uuid w.path rows, .ok⟩ := by
    simp only [World.plan, hq, hn]
  have hlen : k < ([Op.mk w.uuid, Op.enter n w.uuid] ++ store E w.uuid w.path rows : List (Op ρ)).length := by
    simp only [store, List.length_append, List.length_cons, List.length_nil, puts_length]
    omega
  have hexec : w.exec E (.createAs n q) f =
      (w.applyAll (([Op.mk w.uuid, Op.enter n w.uuid] ++ store E w.uuid w.path rows).take k), .failed) := by
    rcases hf with rfl | rfl <;>
      simp only [World.exec, hplan, World.carry, List.length_nil, Nat.not_lt_zero, if_false, List.nil_append, if_pos hlen]
  have htake : ([Op.mk w.uuid, .enter n w.uuid] ++ store E w.uuid w.path rows : List (Op ρ)).take k =
      [Op.mk w.uuid, Op.enter n w.uuid] ++ puts w.uuid w.path ((E.cut rows).take (k - 2)) := by
    obtain ⟨j, rfl⟩ : ∃ j, k = j + 2 := ⟨k - 2, by omega⟩
    simp only [List.cons_append, List.nil_append, List.take_succ_cons, store, Nat.add_sub_cancel]
    rw [List.take_append_of_le_length (by rw [puts_length]; omega), puts_take]
  rw [hexec]
  refine ⟨rfl, ?_⟩
  simp only
  rw [htake, applyAll_append]
  have hw : (w.applyAll [Op.mk w.uuid, Op.enter n w.uuid]).path = w.path := rfl
  have hs := puts_spec w.uuid ((E.cut rows).take (k - 2)) (w.applyAll [Op.mk w.uuid, Op.enter n w.uuid])
  rw [hw] at hs
  refine read_new (u := w.uuid) (t := w.now) ?_ ?_
  · simp only [World.find, hs.entries]
    exact find_enter (w := w.apply (.mk w.uuid)) hn w.uuid
  · rw [hs.log]
    simp [World.applyAll, World.apply, set]

/-- Its hypotheses. -/
example : (World.empty : World Nat).query (values [1]) = some [1] ∧ (World.empty : World Nat).find "t" = none ∧
    (demo.cut [1]).length = 1 := by decide +kernel

/-- **C130 is violated (DROP TABLE), always**: whatever the tables, a server that stops after the deletion of the log and before
that of the metastore's entry leaves a name that can be neither read nor used again; the client of a deletion that fails is even
told nothing. -/
theorem C130_violated_drop_always (E : Env ρ) (w : World ρ) (n : String) {e : Entry} (hf : w.find n = some e) {k : Nat} (h1 : 1 ≤ k)
    (h2 : k ≤ w.path + 1) :
    let w' := (w.exec E (.drop n) (.crash k)).1
    (w.exec E (.drop n) (.crash k)).2 = .failed ∧ (∀ t, w'.read (n, t) = none) ∧
    (∀ s : Stmt ρ, (∃ q, s = .insert n q) ∨ (∃ p g, s = .modify n p g) ∨ s = .truncate n ∨ s = .vacuum n ∨
      (∃ m, s = .rename n m) ∨ s = .create n → (w'.exec E s .none).2 = .refused) := by
  have hlen : k < (Op.eraseLog e.uuid :: (List.range w.path).map (Op.erase e.uuid ·) ++ [Op.forget n] : List (Op ρ)).length := by
    simp only [List.length_append, List.length_cons, List.length_map, List.length_range, List.length_nil]
    omega
  obtain ⟨j, rfl⟩ : ∃ j, k = j + 1 := ⟨k - 1, by omega⟩
  have hexec : w.exec E (.drop n) (.crash (j + 1)) =
      (w.applyAll ((Op.eraseLog e.uuid :: (List.range w.path).map (Op.erase e.uuid ·) ++ [Op.forget n]).take (j + 1)), .failed) := by
    simp only [World.exec, World.plan, hf, World.carry, if_pos hlen]
  have htake : (Op.eraseLog e.uuid :: (List.range w.path).map (Op.erase e.uuid ·) ++ [Op.forget n] : List (Op ρ)).take (j + 1) =
      .eraseLog e.uuid :: ((List.range w.path).map (Op.erase e.uuid ·)).take j := by
    simp only [List.cons_append, List.take_succ_cons]
    rw [List.take_append_of_le_length (by simp only [List.length_map, List.length_range]; omega)]
  have hrem : ∀ (ops : List (Op ρ)), (∀ o ∈ ops, ∃ u p, o = .erase u p) → ∀ v : World ρ,
      (v.applyAll ops).entries = v.entries ∧ (v.applyAll ops).log = v.log := by
    intro ops
    induction ops with
    | nil => exact fun _ v => ⟨rfl, rfl⟩
    | cons o ops ih =>
      intro ho v
      obtain ⟨u, p, rfl⟩ := ho o (by simp)
      have := ih (fun o' h' => ho o' (by simp [h'])) (v.apply (.erase u p))
      exact this
  obtain ⟨he, hl⟩ := hrem (((List.range w.path).map (Op.erase e.uuid ·)).take j) (fun o ho => by
    obtain ⟨p, _, rfl⟩ := List.mem_map.mp (List.mem_of_mem_take ho)
    exact ⟨_, _, rfl⟩) (w.apply (.eraseLog e.uuid))
  have hw' : (w.exec E (.drop n) (.crash (j + 1))).1 =
      (w.apply (.eraseLog e.uuid)).applyAll (((List.range w.path).map (Op.erase e.uuid ·)).take j) := by
    rw [hexec, htake]
    rfl
  intro w'
  have hfind : w'.find n = some e := by
    simp only [w', hw', World.find, he]
    exact hf
  have hlook : w'.look n = none := by
    have hlog : w'.log e.uuid = [] := by
      simp only [w', hw', hl]
      simp [World.apply, set]
    simp only [World.look, hfind, hlog, List.isEmpty_nil, if_true]
  refine ⟨by rw [hexec], fun t => by simp only [World.read, hlook], ?_⟩
  rintro s (⟨q, rfl⟩ | ⟨p, g, rfl⟩ | rfl | rfl | ⟨m, rfl⟩ | rfl)
  · simp only [World.exec, World.plan, hlook]
    cases w'.query q <;> rfl
  · simp only [World.exec, World.plan, hlook]
    rfl
  · simp only [World.exec, World.plan, hlook]
    rfl
  · simp only [World.exec, World.plan, hlook]
    rfl
  · simp only [World.exec, World.plan, hlook]
    rfl
  · simp only [World.exec, World.plan, hfind]
    rfl

/-- Its hypotheses. -/
example : ((World.empty.run demo [(.createAs "t" (values [1]), .none)]).1.find "t").isSome = true ∧
    (World.empty.run demo [(.createAs "t" (values [1]), .none)]).1.path = 1 := by decide +kernel

theorem find_record (w : World ρ) (u : Nat) (n : String) :
    ((w.apply (.record u)).find n).map (·.uuid) = (w.find n).map (·.uuid) := by
  simp only [World.find, World.apply]
  induction w.entries with
  | nil => rfl
  | cons e es ih =>
    have hname : (if e.uuid = u then { e with versions := e.versions ++ [w.latest u] } else e).name = e.name := by split <;> rfl
    have huuid : (if e.uuid = u then { e with versions := e.versions ++ [w.latest u] } else e).uuid = e.uuid := by split <;> rfl
    simp only [List.map_cons, List.find?_cons, hname]
    cases he : (e.name == n) with
    | true => simp only [Option.map_some, huuid]
    | false => exact ih

theorem read_record (w : World ρ) (u : Nat) (x : String × Option Nat) : (w.apply (.record u)).read x = w.read x := by
  have h := find_record w u x.1
  have hlog : (w.apply (.record u)).log = w.log := rfl
  have hfiles : (w.apply (.record u)).files = w.files := rfl
  simp only [World.read, World.look]
  cases ha : (w.apply (.record u)).find x.1 with
  | none =>
    cases hb : w.find x.1 with
    | none => rfl
    | some b => simp [ha, hb] at h
  | some a =>
    cases hb : w.find x.1 with
    | none => simp [ha, hb] at h
    | some b =>
      simp only [ha, hb, Option.map_some, Option.some.injEq] at h
      simp only [hlog, h]
      by_cases hl : (w.log b.uuid).isEmpty = true
      · simp only [hl, if_true]
      · simp only [if_neg hl, h, World.rowsAt, World.latest, hlog, hfiles]

/-- **A statement may fail and yet have its whole effect, always**: an INSERT, UPDATE or DELETE that is carried out up to the record
of the new version is reported as failed, and every table reads, now and at every time, as if it had succeeded. -/
theorem C130_late_always (E : Env ρ) (w : World ρ) (s : Stmt ρ) {ops : List (Op ρ)} {u : Nat}
    (hs : w.plan E s = ⟨[], ops ++ [.record u], .ok⟩) (hw : ∀ d, s ≠ .wait d) (f : Fault) (hf : f = .error ops.length ∨ f = .crash ops.length) :
    (w.exec E s f).2 = .failed ∧ (w.exec E s .none).2 = .ok ∧ ∀ x, (w.exec E s f).1.read x = (w.exec E s .none).1.read x := by
  have hlen : ops.length < (ops ++ [Op.record u] : List (Op ρ)).length := by simp
  have hn : w.exec E s .none = ((w.applyAll ops).apply (.record u), .ok) := by
    have : w.exec E s .none = w.carry (w.plan E s) .none := by
      cases s <;> first | rfl | exact absurd rfl (hw _)
    rw [this, hs]
    simp [World.carry, World.applyAll]
  have hx : w.exec E s f = (w.applyAll ops, .failed) := by
    have : w.exec E s f = w.carry (w.plan E s) f := by
      cases s <;> first | rfl | exact absurd rfl (hw _)
    rw [this, hs]
    rcases hf with rfl | rfl <;>
      simp only [World.carry, List.length_nil, Nat.not_lt_zero, if_false, List.nil_append, if_pos hlen] <;>
      rw [List.take_append_of_le_length (Nat.le_refl _), List.take_length]
  rw [hn, hx]
  exact ⟨rfl, rfl, fun x => (read_record _ u x).symm⟩

/-- Every INSERT into a table that can be read has such a plan, … -/
theorem C130_late_insert (E : Env ρ) (w : World ρ) (n : String) (q : Query ρ) {rows : List ρ} {e : Entry} (hq : w.query q = some rows)
    (hl : w.look n = some e) :
    ∃ ops u, w.plan E (.insert n q) = ⟨[], ops ++ [.record u], .ok⟩ ∧ ops.length = (E.cut rows).length + 1 :=
  ⟨puts e.uuid w.path (E.cut rows) ++ [.commit e.uuid (names w.path (E.cut rows)) []], e.uuid,
    by simp [World.plan, hq, hl, store], by simp [puts_length]⟩

/-- … and every UPDATE and DELETE of one whose files are there. -/
theorem C130_late_modify (E : Env ρ) (w : World ρ) (n : String) (p : ρ → Bool) (g : ρ → Option ρ) {rows : List ρ} {e : Entry}
    (hl : w.look n = some e) (hr : readAll (w.files e.uuid) (touched E (w.files e.uuid) p (live (w.log e.uuid))) = some rows) :
    ∃ ops u, w.plan E (.modify n p g) = ⟨[], ops ++ [.record u], .ok⟩ := by
  by_cases h : (touched E (w.files e.uuid) p (live (w.log e.uuid))).isEmpty = true
  · exact ⟨[.commit e.uuid [] []], e.uuid, by simp only [World.plan, hl, hr, h, if_true]; rfl⟩
  · exact ⟨puts e.uuid w.path (E.cut (rows.filterMap (change p g))) ++ [.commit e.uuid (names w.path (E.cut (rows.filterMap (change p g))))
      (touched E (w.files e.uuid) p (live (w.log e.uuid)))], e.uuid, by simp [World.plan, hl, hr, h]⟩

end Seafowl.Database
