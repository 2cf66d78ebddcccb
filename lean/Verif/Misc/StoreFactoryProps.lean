import Verif.Misc.StoreFactory
import Mathlib.Data.List.Nodup
import Mathlib.Data.List.Perm.Subperm

/-
C70: stores of tables with their own location.
-/
namespace Seafowl.StoreFactory
set_option linter.unusedSimpArgs false
set_option linter.unusedSectionVars false

variable {α : Type} [DecidableEq α]

/-! ### Specification -/

/-- The same location and the same options, in whatever order. -/
def Same (a b : Key α) : Prop := a.url = b.url ∧ ∀ e, e ∈ a.options ↔ e ∈ b.options

/-- The entries of a hash map: no name twice. -/
def IsMap (k : Key α) : Prop := (k.options.map (·.1)).Nodup

/-! ### Hash and equality agree -/

theorem IsMap.nodup {k : Key α} (h : IsMap k) : k.options.Nodup := List.Nodup.of_map _ h

theorem insertPair_perm (o : Ord α) (e : α × α) (l : List (α × α)) :
    (insertPair o e l).Perm (e :: l) := by
  induction l with
  | nil => exact .refl _
  | cons f fs ih =>
    simp only [insertPair]
    split
    · exact .refl _
    · exact (List.Perm.cons f ih).trans (List.Perm.swap e f fs)

theorem sortPairs_perm (o : Ord α) (l : List (α × α)) : (sortPairs o l).Perm l := by
  induction l with
  | nil => exact .refl _
  | cons e es ih => exact (insertPair_perm o e _).trans (List.Perm.cons e ih)

def SortedBy (o : Ord α) (l : List (α × α)) : Prop := l.Pairwise (fun a b => o.le a.1 b.1 = true)

theorem insertPair_sorted (o : Ord α) (e : α × α) (l : List (α × α)) (h : SortedBy o l) :
    SortedBy o (insertPair o e l) := by
  induction l with
  | nil => simp [insertPair, SortedBy]
  | cons f fs ih =>
    have h' := List.pairwise_cons.1 h
    simp only [insertPair]
    split
    · rename_i hle
      refine List.pairwise_cons.2 ⟨?_, h⟩
      intro x hx
      rcases List.mem_cons.1 hx with rfl | hx
      · exact hle
      · exact o.trans _ _ _ hle (h'.1 x hx)
    · rename_i hle
      refine List.pairwise_cons.2 ⟨?_, ih h'.2⟩
      intro x hx
      rcases List.mem_cons.1 ((insertPair_perm o e fs).mem_iff.1 hx) with rfl | hx
      · rcases o.total x.1 f.1 with h1 | h1
        · exact absurd h1 hle
        · exact h1
      · exact h'.1 x hx

theorem sortPairs_sorted (o : Ord α) (l : List (α × α)) : SortedBy o (sortPairs o l) := by
  induction l with
  | nil => exact List.Pairwise.nil
  | cons e es ih => exact insertPair_sorted o e _ ih

theorem sorted_unique (o : Ord α) (a b : List (α × α)) (ha : SortedBy o a) (hb : SortedBy o b)
    (hk : (a.map (·.1)).Nodup) (hp : a.Perm b) : a = b := by
  induction a generalizing b with
  | nil => exact (List.Perm.nil_eq hp)
  | cons x xs ih =>
    cases b with
    | nil => exact absurd hp.length_eq (by simp)
    | cons y ys =>
      have ha' := List.pairwise_cons.1 ha
      have hb' := List.pairwise_cons.1 hb
      have hxy : x = y := by
        have hx : x ∈ y :: ys := hp.mem_iff.1 List.mem_cons_self
        have hy : y ∈ x :: xs := hp.mem_iff.2 List.mem_cons_self
        rcases List.mem_cons.1 hx with h | h
        · exact h
        · rcases List.mem_cons.1 hy with h2 | h2
          · exact h2.symm
          · exfalso
            have e1 := hb'.1 x h
            have e2 := ha'.1 y h2
            have := o.antisymm _ _ e2 e1
            simp only [List.map_cons, List.nodup_cons] at hk
            exact hk.1 (this ▸ List.mem_map_of_mem h2)
      subst hxy
      have hp' : xs.Perm ys := hp.cons_inv
      simp only [List.map_cons, List.nodup_cons] at hk
      rw [ih ys ha'.2 hb'.2 hk.2 hp']

theorem perm_of_same {a b : Key α} (ha : IsMap a) (hb : IsMap b) (h : Same a b) :
    a.options.Perm b.options :=
  (List.perm_ext_iff_of_nodup ha.nodup hb.nodup).2 h.2

/-- **C70 (hash).**  Equal keys have equal hashes, in whatever order their hash maps are iterated. -/
theorem C70_hash (o : Ord α) {a b : Key α} (ha : IsMap a) (hb : IsMap b) (h : Same a b) :
    a.hashed o = b.hashed o := by
  unfold Key.hashed
  have hp := perm_of_same ha hb h
  have : sortPairs o a.options = sortPairs o b.options := by
    apply sorted_unique o _ _ (sortPairs_sorted o _) (sortPairs_sorted o _)
    · exact ((sortPairs_perm o a.options).map _).nodup_iff.2 ha
    · exact (sortPairs_perm o _).trans (hp.trans (sortPairs_perm o _).symm)
  rw [h.1, this]

theorem eq_iff_same {a b : Key α} (ha : IsMap a) (hb : IsMap b) : a.eq b = true ↔ Same a b := by
  unfold Key.eq mapEq Same
  simp only [Bool.and_eq_true, decide_eq_true_eq, beq_iff_eq, List.all_eq_true, List.any_eq_true,
    exists_eq_right]
  constructor
  · rintro ⟨h1, h2, h3⟩
    refine ⟨h1, fun e => ⟨fun he => h3 e he, ?_⟩⟩
    have hsub : a.options ⊆ b.options := fun e he => h3 e he
    have hsp : a.options.Subperm b.options := List.subperm_of_subset ha.nodup hsub
    have hp : a.options.Perm b.options := hsp.perm_of_length_le (by omega)
    exact fun he => hp.mem_iff.2 he
  · rintro ⟨h1, h2⟩
    have hp := (List.perm_ext_iff_of_nodup ha.nodup hb.nodup).2 h2
    exact ⟨h1, hp.length_eq, fun e he => (h2 e).1 he⟩

/-! ### The factory -/

/-- Every store the factory hands out was built from the key it is kept under; all keys are maps. -/
structure Inv (f : Factory α) : Prop where
  maps : ∀ e ∈ f.stores, IsMap e.1
  from_ : ∀ e ∈ f.stores, ∃ k, f.built[e.2]? = some k ∧ Same k e.1
  once : ∀ e ∈ f.stores, ∀ e' ∈ f.stores, Same e.1 e'.1 → e.2 = e'.2
  apart : ∀ e ∈ f.stores, ∀ e' ∈ f.stores, e.2 = e'.2 → Same e.1 e'.1

omit [DecidableEq α] in
theorem Same.symm {a b : Key α} (h : Same a b) : Same b a := ⟨h.1.symm, fun e => (h.2 e).symm⟩
omit [DecidableEq α] in
theorem Same.trans {a b c : Key α} (h : Same a b) (h' : Same b c) : Same a c :=
  ⟨h.1.trans h'.1, fun e => (h.2 e).trans (h'.2 e)⟩
omit [DecidableEq α] in
theorem Same.refl (a : Key α) : Same a a := ⟨rfl, fun _ => Iff.rfl⟩

theorem lookup_some {o : Ord α} {hash : α × List (α × α) → Nat} {k : Key α} (hk : IsMap k)
    {l : List (Key α × Nat)} (hl : ∀ e ∈ l, IsMap e.1) {s : Nat} (h : lookup o hash k l = some s) :
    ∃ k', (k', s) ∈ l ∧ Same k' k := by
  induction l with
  | nil => simp [lookup] at h
  | cons e l ih =>
    obtain ⟨k', v⟩ := e
    simp only [lookup] at h
    split at h
    · rename_i hc
      cases h
      exact ⟨k', List.mem_cons_self, (eq_iff_same (hl _ List.mem_cons_self) hk).1 hc.2⟩
    · obtain ⟨k2, h1, h2⟩ := ih (fun e he => hl e (List.mem_cons_of_mem _ he)) h
      exact ⟨k2, List.mem_cons_of_mem _ h1, h2⟩

theorem lookup_none {o : Ord α} {hash : α × List (α × α) → Nat} {k : Key α} (hk : IsMap k)
    {l : List (Key α × Nat)} (hl : ∀ e ∈ l, IsMap e.1) (h : lookup o hash k l = none) :
    ∀ e ∈ l, ¬ Same e.1 k := by
  induction l with
  | nil => simp
  | cons e l ih =>
    obtain ⟨k', v⟩ := e
    simp only [lookup] at h
    split at h
    · exact absurd h (by simp)
    · rename_i hc
      intro e he hs
      rcases List.mem_cons.1 he with rfl | he
      · have hm := hl _ List.mem_cons_self
        exact hc ⟨by rw [C70_hash o hm hk hs], (eq_iff_same hm hk).2 hs⟩
      · exact ih (fun e he => hl e (List.mem_cons_of_mem _ he)) h e he hs

theorem get_inv {o : Ord α} {hash : α × List (α × α) → Nat} {f : Factory α} (h : Inv f) {k : Key α}
    (hk : IsMap k) (p : α) (ok : Bool) : Inv (f.get o hash k p ok).1 := by
  unfold Factory.get
  cases hl : lookup o hash k f.stores with
  | some s => exact h
  | none =>
    cases ok with
    | false => exact h
    | true =>
      have hn := lookup_none hk h.maps hl
      have hlt : ∀ e ∈ f.stores, e.2 < f.built.length := by
        intro e he
        obtain ⟨k', h1, _⟩ := h.from_ e he
        exact (List.getElem?_eq_some_iff.1 h1).1
      simp only [if_true]
      refine ⟨?_, ?_, ?_, ?_⟩
      · intro e he
        rcases List.mem_cons.1 he with rfl | he
        · exact hk
        · exact h.maps e he
      · intro e he
        rcases List.mem_cons.1 he with rfl | he
        · exact ⟨k, by simp, Same.refl k⟩
        · obtain ⟨k', h1, h2⟩ := h.from_ e he
          exact ⟨k', by rw [List.getElem?_append_left (hlt e he)]; exact h1, h2⟩
      · intro e he e' he' hs
        rcases List.mem_cons.1 he with rfl | he <;> rcases List.mem_cons.1 he' with rfl | he'
        · rfl
        · exact absurd hs.symm (hn _ he')
        · exact absurd hs (hn _ he)
        · exact h.once e he e' he' hs
      · intro e he e' he' hs
        rcases List.mem_cons.1 he with rfl | he <;> rcases List.mem_cons.1 he' with rfl | he'
        · exact Same.refl _
        · have := hlt _ he'; simp only at hs; omega
        · have := hlt _ he; simp only at hs; omega
        · exact h.apart e he e' he' hs

/-- The store a request got is kept under its key from then on. -/
theorem get_kept {o : Ord α} {hash : α × List (α × α) → Nat} {f : Factory α} (h : Inv f) {k : Key α}
    (hk : IsMap k) {p : α} {ok : Bool} {s : LogStore α} (hs : (f.get o hash k p ok).2 = some s) :
    s.path = p ∧ ∃ k', (k', s.store) ∈ (f.get o hash k p ok).1.stores ∧ Same k' k := by
  unfold Factory.get at hs ⊢
  cases hl : lookup o hash k f.stores with
  | some s' =>
    rw [hl] at hs
    simp only [Option.some.injEq] at hs
    subst hs
    exact ⟨rfl, lookup_some hk h.maps hl⟩
  | none =>
    rw [hl] at hs
    cases ok with
    | false => simp at hs
    | true =>
      simp only [if_true, Option.some.injEq] at hs ⊢
      subst hs
      exact ⟨rfl, k, List.mem_cons_self, Same.refl k⟩

theorem get_grows {o : Ord α} {hash : α × List (α × α) → Nat} (f : Factory α) (k : Key α) (p : α)
    (ok : Bool) : (∀ e ∈ f.stores, e ∈ (f.get o hash k p ok).1.stores) ∧
      f.built <+: (f.get o hash k p ok).1.built := by
  unfold Factory.get
  cases lookup o hash k f.stores with
  | some s => exact ⟨fun _ h => h, List.prefix_rfl⟩
  | none =>
    cases ok with
    | false => exact ⟨fun _ h => h, List.prefix_rfl⟩
    | true => exact ⟨fun _ h => List.mem_cons_of_mem _ h, List.prefix_append _ _⟩

theorem run_grows {o : Ord α} {hash : α × List (α × α) → Nat} (f : Factory α)
    (rs : List (Key α × α × Bool)) : (∀ e ∈ f.stores, e ∈ (f.run o hash rs).1.stores) := by
  induction rs generalizing f with
  | nil => exact fun _ h => h
  | cons r rs ih =>
    obtain ⟨k, p, ok⟩ := r
    intro e he
    exact ih _ e ((get_grows f k p ok).1 e he)

theorem run_inv {o : Ord α} {hash : α × List (α × α) → Nat} {f : Factory α} (h : Inv f)
    {rs : List (Key α × α × Bool)} (hm : ∀ r ∈ rs, IsMap r.1) : Inv (f.run o hash rs).1 := by
  induction rs generalizing f with
  | nil => exact h
  | cons r rs ih =>
    obtain ⟨k, p, ok⟩ := r
    exact ih (get_inv h (hm _ List.mem_cons_self) p ok) (fun r hr => hm r (List.mem_cons_of_mem _ hr))

theorem run_kept {o : Ord α} {hash : α × List (α × α) → Nat} {f : Factory α} (h : Inv f)
    {rs : List (Key α × α × Bool)} (hm : ∀ r ∈ rs, IsMap r.1) {i : Nat} {k : Key α} {p : α} {ok : Bool}
    {s : LogStore α} (hr : rs[i]? = some (k, p, ok)) (hs : (f.run o hash rs).2[i]? = some (some s)) :
    s.path = p ∧ ∃ k', (k', s.store) ∈ (f.run o hash rs).1.stores ∧ Same k' k := by
  induction rs generalizing f i with
  | nil => simp at hr
  | cons r rs ih =>
    obtain ⟨k0, p0, ok0⟩ := r
    have hk0 : IsMap k0 := hm _ List.mem_cons_self
    cases i with
    | zero =>
      simp only [List.getElem?_cons_zero, Option.some.injEq, Prod.mk.injEq] at hr
      obtain ⟨rfl, rfl, rfl⟩ := hr
      simp only [Factory.run, List.getElem?_cons_zero, Option.some.injEq] at hs
      obtain ⟨h1, k', h2, h3⟩ := get_kept h hk0 hs
      exact ⟨h1, k', run_grows _ rs _ h2, h3⟩
    | succ j =>
      simp only [List.getElem?_cons_succ] at hr
      simp only [Factory.run, List.getElem?_cons_succ] at hs
      exact ih (get_inv h hk0 p0 ok0) (fun r hr => hm r (List.mem_cons_of_mem _ hr)) hr hs

omit [DecidableEq α] in
theorem inv_empty : Inv (⟨[], []⟩ : Factory α) := by
  constructor <;> simp

/-- **C70.**  In any sequence of requests to a new factory:
* a table's store was built from the table's own location and options, and its files are looked for
  under its own path;
* two tables get the same store exactly if their locations and options agree. -/
theorem C70 (o : Ord α) (hash : α × List (α × α) → Nat) (rs : List (Key α × α × Bool))
    (hm : ∀ r ∈ rs, IsMap r.1) :
    let r := (⟨[], []⟩ : Factory α).run o hash rs
    (∀ (i : Nat) k p ok s, rs[i]? = some (k, p, ok) → r.2[i]? = some (some s) →
      s.path = p ∧ ∃ k', r.1.built[s.store]? = some k' ∧ Same k' k) ∧
    (∀ (i j : Nat) k p ok s k' p' ok' s', rs[i]? = some (k, p, ok) → r.2[i]? = some (some s) →
      rs[j]? = some (k', p', ok') → r.2[j]? = some (some s') →
      (s.store = s'.store ↔ Same k k')) := by
  intro r
  have hinv : Inv r.1 := run_inv inv_empty hm
  refine ⟨?_, ?_⟩
  · intro i k p ok s hr hs
    obtain ⟨h1, k', h2, h3⟩ := run_kept inv_empty hm hr hs
    obtain ⟨k2, h4, h5⟩ := hinv.from_ _ h2
    exact ⟨h1, k2, h4, h5.trans h3⟩
  · intro i j k p ok s k' p' ok' s' hi hsi hj hsj
    obtain ⟨_, a, ha, hak⟩ := run_kept inv_empty hm hi hsi
    obtain ⟨_, b, hb, hbk⟩ := run_kept inv_empty hm hj hsj
    constructor
    · intro e
      have := hinv.apart _ ha _ hb e
      exact (hak.symm.trans this).trans hbk
    · intro e
      exact hinv.once _ ha _ hb ((hak.trans e).trans hbk.symm)

/-- A request whose store cannot be built fails and leaves no trace; the next one tries again. -/
theorem C70_failed (o : Ord α) (hash : α × List (α × α) → Nat) (f : Factory α) (k : Key α) (p : α) :
    (f.get o hash k p false).1 = f ∧ ((f.get o hash k p true).2).isSome = true := by
  unfold Factory.get
  cases lookup o hash k f.stores <;> simp

/-- **C70 (cache).**  Exactly the remote stores are cached, if a cache is configured. -/
theorem C70_cached (scheme : String) (c : Bool) :
    cached scheme c = true ↔ c = true ∧ scheme ≠ "file" ∧ scheme ≠ "memory" := by
  cases c <;> simp [cached]

/-- **C70_url_partial.**  Tables at different paths of one location have different URLs.  Missing:
paths with `.` or `..` segments. -/
theorem C70_url_partial (loc p q : List String) (hp : ∀ s ∈ p, s ≠ "." ∧ s ≠ "..")
    (hq : ∀ s ∈ q, s ≠ "." ∧ s ≠ "..") (h : tableUrl loc p = tableUrl loc q) : p = q := by
  have e : ∀ l : List String, (∀ s ∈ l, s ≠ "." ∧ s ≠ "..") →
      l.filter (fun s => s != "." && s != "..") = l := by
    intro l hl
    rw [List.filter_eq_self]
    intro s hs
    simp [hl s hs]
  unfold tableUrl at h
  rw [e p hp, e q hq] at h
  exact List.append_cancel_left h

/-- **C70_url_join_partial.**  The URL of a table is the location followed by the path, whether or not
the location is written with a slash at the end.  Missing: paths with `.` or `..` segments. -/
theorem C70_url_join_partial (loc p : List String) (hl : loc.getLast? ≠ some "") (hp : ∀ s ∈ p, s ≠ "." ∧ s ≠ "..") :
    tableUrl loc p = loc ++ p ∧ tableUrl (loc ++ [""]) p = loc ++ p := by
  have e : p.filter (fun s => s != "." && s != "..") = p := by
    rw [List.filter_eq_self]
    intro s hs
    simp [hp s hs]
  constructor
  · simp [tableUrl, hl, e]
  · simp [tableUrl, e]

example : tableUrl ["data", "lake", ""] ["a", "b"] = ["data", "lake", "a", "b"] := by decide +kernel

/-- With such segments two tables can have the same URL: -/
theorem C70_violated_url : tableUrl ["data"] ["a", "..", "b"] = tableUrl ["data"] ["a", "b"] := by
  decide +kernel

/-- Two paths of one location have the same URL exactly if they agree once `.` and `..` are left out … -/
theorem C70_url_exact (loc p q : List String) :
    tableUrl loc p = tableUrl loc q ↔
      p.filter (fun s => s ≠ "." ∧ s ≠ "..") = q.filter (fun s => s ≠ "." ∧ s ≠ "..") := by
  have e : (fun s : String => s != "." && s != "..") = (fun s => decide (s ≠ "." ∧ s ≠ "..")) := by
    funext s
    by_cases h1 : s = "." <;> by_cases h2 : s = ".." <;> simp [h1, h2]
  unfold tableUrl
  rw [e]
  constructor
  · exact fun h => List.append_cancel_left h
  · intro h; rw [h]

/-- … so a path with such a segment always shares the URL of another path: the one without it. -/
theorem C70_violated_url_always (loc a b : List String) (s : String) (hs : s = "." ∨ s = "..") :
    tableUrl loc (a ++ s :: b) = tableUrl loc (a ++ b) ∧ a ++ s :: b ≠ a ++ b := by
  constructor
  · rw [C70_url_exact]
    rcases hs with rfl | rfl <;> simp
  · intro h
    have := congrArg List.length h
    simp at this

/-- An order of numbers, for the examples. -/
def natOrd : Ord Nat where
  le a b := decide (a ≤ b)
  total a b := by simp; omega
  trans a b c := by simp; omega
  antisymm a b := by simp; omega

example : IsMap (⟨0, [(2, 1), (1, 1)]⟩ : Key Nat) := by simp [IsMap]
/-- Three requests, the second with the options in another order, the third for another location. -/
example : ((⟨[], []⟩ : Factory Nat).run natOrd (fun _ => 0)
    [(⟨0, [(2, 1), (1, 1)]⟩, 7, true), (⟨0, [(1, 1), (2, 1)]⟩, 8, true), (⟨1, []⟩, 7, true)]).2
    = [some ⟨0, 7⟩, some ⟨0, 8⟩, some ⟨1, 7⟩] := by decide

/-- What a call has, for the settings `k`, and how many turns it needs at most. -/
def Stage (built : List (Key α)) (k : Key α) (turns : Nat) : Pc α → Prop
  | .look k' => k' = k ∧ 3 ≤ turns
  | .build k' => k' = k ∧ 2 ≤ turns
  | .insert k' s => k' = k ∧ built[s]? = some k ∧ 1 ≤ turns
  | .done s => ∃ k', built[s]? = some k' ∧ Same k' k

omit [DecidableEq α] in
theorem Stage.mono {built : List (Key α)} {k : Key α} {t : Nat} {pc : Pc α} (h : Stage built k t pc) (more : List (Key α)) :
    Stage (built ++ more) k t pc := by
  have hb : ∀ {s : Nat} {k'}, built[s]? = some k' → (built ++ more)[s]? = some k' := by
    intro s k' hs
    rw [List.getElem?_append_left (List.getElem?_eq_some_iff.1 hs).1, hs]
  cases pc with
  | look k' => exact h
  | build k' => exact h
  | insert k' s => exact ⟨h.1, hb h.2.1, h.2.2⟩
  | done s =>
    obtain ⟨k', h1, h2⟩ := h
    exact ⟨k', hb h1, h2⟩

/-- The invariant of concurrent calls: `n i` turns are left for the call `i`. -/
structure Going (ks : List (Key α)) (n : Nat → Nat) (c : Conc α) : Prop where
  stores : ∀ e ∈ c.f.stores, IsMap e.1 ∧ c.f.built[e.2]? = some e.1
  len : c.calls.length = ks.length
  calls : ∀ (i : Nat) k pc, ks[i]? = some k → c.calls[i]? = some pc → Stage c.f.built k (n i) pc

theorem going_step {o : Ord α} {hash : α × List (α × α) → Nat} {ks : List (Key α)} (hm : ∀ k ∈ ks, IsMap k) {n : Nat → Nat}
    {c : Conc α} (h : Going ks n c) (i : Nat) : Going ks (fun j => if j = i then n j - 1 else n j) (c.step o hash i) := by
  have set1 : ∀ (more : List (Key α)) (st : List (Key α × Nat)) (pc' : Pc α),
      (∀ e ∈ st, IsMap e.1 ∧ (c.f.built ++ more)[e.2]? = some e.1) →
      (∀ k, ks[i]? = some k → Stage (c.f.built ++ more) k (n i - 1) pc') →
      Going ks (fun j => if j = i then n j - 1 else n j) ⟨⟨st, c.f.built ++ more⟩, c.calls.set i pc'⟩ := by
    intro more st pc' hst hpc
    refine ⟨hst, by simpa using h.len, ?_⟩
    intro j k pc hj hp
    simp only [List.getElem?_set] at hp
    split at hp
    · next hji =>
      subst hji
      split at hp
      · cases hp
        simpa using hpc k hj
      · cases hp
    · next hji =>
      simpa [Ne.symm hji] using (h.calls j k pc hj hp).mono more
  have hk : ∀ pc, c.calls[i]? = some pc → ∃ k, ks[i]? = some k ∧ Stage c.f.built k (n i) pc := by
    intro pc hp
    have hi : i < ks.length := by
      rw [← h.len]
      exact (List.getElem?_eq_some_iff.1 hp).1
    exact ⟨ks[i], List.getElem?_eq_getElem hi, h.calls i _ pc (List.getElem?_eq_getElem hi) hp⟩
  unfold Conc.step
  split
  · next k hc =>
    obtain ⟨k0, hk0, rfl, hn⟩ := hk _ hc
    split
    · next s hl =>
      have := set1 [] c.f.stores (.done s) (by simpa using h.stores) (by
        intro k1 hk1
        rw [hk0] at hk1
        cases hk1
        obtain ⟨k', h1, h2⟩ := lookup_some (hm _ (List.mem_of_getElem? hk0)) (fun e he => (h.stores e he).1) hl
        exact ⟨k', by simpa using (h.stores _ h1).2, h2⟩)
      simpa using this
    · have := set1 [] c.f.stores (.build k) (by simpa using h.stores) (by
        intro k1 hk1
        rw [hk0] at hk1
        cases hk1
        exact ⟨rfl, by omega⟩)
      simpa using this
  · next k hc =>
    obtain ⟨k0, hk0, rfl, hn⟩ := hk _ hc
    refine set1 [k] c.f.stores _ ?_ ?_
    · intro e he
      obtain ⟨h1, h2⟩ := h.stores e he
      refine ⟨h1, ?_⟩
      rw [List.getElem?_append_left (List.getElem?_eq_some_iff.1 h2).1, h2]
    · intro k1 hk1
      rw [hk0] at hk1
      cases hk1
      exact ⟨rfl, by simp, by omega⟩
  · next k s hc =>
    obtain ⟨k0, hk0, rfl, hs, hn⟩ := hk _ hc
    have := set1 [] ((k, s) :: c.f.stores) (.done s) (by
      intro e he
      rcases List.mem_cons.1 he with rfl | he
      · exact ⟨hm _ (List.mem_of_getElem? hk0), by simpa using hs⟩
      · simpa using h.stores e he) (by
      intro k1 hk1
      rw [hk0] at hk1
      cases hk1
      exact ⟨k, by simpa using hs, Same.refl k⟩)
    simpa using this
  · next h1 h2 h3 =>
    refine ⟨h.stores, h.len, ?_⟩
    intro j k pc hj hp
    by_cases hji : j = i
    · subst hji
      have := h.calls j k pc hj hp
      cases pc with
      | look k' => exact absurd hp (h1 k')
      | build k' => exact absurd hp (h2 k')
      | insert k' s => exact absurd hp (h3 k' s)
      | done s => exact this
    · simpa [hji] using h.calls j k pc hj hp

theorem going_run {o : Ord α} {hash : α × List (α × α) → Nat} {ks : List (Key α)} (hm : ∀ k ∈ ks, IsMap k) (sched : List Nat) :
    ∀ {n : Nat → Nat} {c : Conc α}, Going ks n c → Going ks (fun j => n j - sched.count j) (c.run o hash sched) := by
  induction sched with
  | nil => intro n c h; simpa [Conc.run] using h
  | cons i is ih =>
    intro n c h
    have := ih (going_step (o := o) (hash := hash) hm h i)
    have e : (fun j => (if j = i then n j - 1 else n j) - is.count j) = fun j => n j - (i :: is).count j := by
      funext j
      rw [List.count_cons]
      by_cases hj : j = i
      · subst hj
        simp only [if_true, beq_self_eq_true]
        omega
      · simp [hj, Ne.symm hj]
    rw [e] at this
    exact this

/-- **C70_race_partial.**  Requests at the same time, in any order: a request that has had its three turns has a store, and
every store a request has was built from the request's own location and options.  Missing: that requests with the same
settings share one (`C70_violated_race`). -/
theorem C70_race_partial (o : Ord α) (hash : α × List (α × α) → Nat) (ks : List (Key α)) (hm : ∀ k ∈ ks, IsMap k)
    (sched : List Nat) (i : Nat) (k : Key α) (hi : ks[i]? = some k) :
    let c := (⟨⟨[], []⟩, ks.map .look⟩ : Conc α).run o hash sched
    (3 ≤ sched.count i → ∃ s, c.calls[i]? = some (.done s)) ∧
    (∀ s, c.calls[i]? = some (.done s) → ∃ k', c.f.built[s]? = some k' ∧ Same k' k) := by
  have h0 : Going ks (fun _ => 3) (⟨⟨[], []⟩, ks.map .look⟩ : Conc α) := by
    refine ⟨by simp, by simp, ?_⟩
    intro j k pc hj hp
    rw [List.getElem?_map, hj] at hp
    cases hp
    exact ⟨rfl, by omega⟩
  have h := going_run (o := o) (hash := hash) hm sched h0
  intro c
  constructor
  · intro h3
    have hlt : i < c.calls.length := by
      rw [h.len]
      exact (List.getElem?_eq_some_iff.1 hi).1
    have hs := h.calls i k _ hi (List.getElem?_eq_getElem hlt)
    have hg := List.getElem?_eq_getElem hlt
    change Stage c.f.built k _ c.calls[i] at hs
    generalize c.calls[i] = pc at hs hg
    rw [hg]
    cases pc with
    | look k' => exact absurd hs.2 (by omega)
    | build k' => exact absurd hs.2 (by omega)
    | insert k' s => exact absurd hs.2.2 (by omega)
    | done s => exact ⟨s, rfl⟩
  · intro s hs
    exact h.calls i k _ hi hs

/-- Two requests for one location and one for another; the second finds the store of the first. -/
example : let k : Key Nat := ⟨0, [(1, 1)]⟩
    ((⟨⟨[], []⟩, [.look k, .look k, .look ⟨1, []⟩]⟩ : Conc Nat).run natOrd (fun _ => 0) [0, 2, 0, 0, 1, 2, 2, 1, 1]).calls
      = [.done 0, .done 0, .done 1] := by decide

/-- **C70 is violated under concurrency**: two first requests for one location both build a store and
get different ones.  For a `memory://` location each has its own data. -/
theorem C70_violated_race :
    let k : Key Nat := ⟨0, []⟩
    let c := (⟨⟨[], []⟩, [.look k, .look k]⟩ : Conc Nat).run natOrd (fun _ => 0) [0, 1, 0, 1, 0, 1]
    c.calls = [.done 0, .done 1] := by
  decide

/-- The calls `js` have all missed the cache; each has its own store, or will build one. -/
def Apart (js : List Nat) (c : Conc α) : Prop :=
  (∀ i ∈ js, (∃ k, c.calls[i]? = some (.build k)) ∨
    ∃ s, s < c.f.built.length ∧ ((∃ k, c.calls[i]? = some (.insert k s)) ∨ c.calls[i]? = some (.done s))) ∧
  (∀ i ∈ js, ∀ j ∈ js, i ≠ j → ∀ s,
    ((∃ k, c.calls[i]? = some (.insert k s)) ∨ c.calls[i]? = some (.done s)) →
    ¬ ((∃ k, c.calls[j]? = some (.insert k s)) ∨ c.calls[j]? = some (.done s)))

theorem apart_step (o : Ord α) (hash : α × List (α × α) → Nat) {js : List Nat} {c : Conc α} (h : Apart js c) (i : Nat) :
    Apart js (c.step o hash i) := by
  obtain ⟨h1, h2⟩ := h
  cases hc : c.calls[i]? with
  | none => simp only [Conc.step, hc]; exact ⟨h1, h2⟩
  | some pc =>
    have hlt : i < c.calls.length := (List.getElem?_eq_some_iff.1 hc).1
    have hself : ∀ x, (c.calls.set i x)[i]? = some x := fun x => by simp [hlt]
    have hoth : ∀ x j, j ≠ i → (c.calls.set i x)[j]? = c.calls[j]? := fun x j hj => by
      rw [List.getElem?_set_ne (Ne.symm hj)]
    cases pc with
    | done s => simp only [Conc.step, hc]; exact ⟨h1, h2⟩
    | look k =>
      have hni : i ∉ js := by
        intro hi
        rcases h1 i hi with ⟨k', e⟩ | ⟨s, _, ⟨k', e⟩ | e⟩ <;> rw [hc] at e <;> cases e
      have key : ∀ x, Apart js { c with calls := c.calls.set i x } := by
        intro x
        have hj : ∀ j ∈ js, j ≠ i := fun j hj e => hni (e ▸ hj)
        refine ⟨fun j hjs => ?_, fun a ha b hb => ?_⟩
        · simp only [hoth x j (hj j hjs)]; exact h1 j hjs
        · simp only [hoth x a (hj a ha), hoth x b (hj b hb)]; exact h2 a ha b hb
      simp only [Conc.step, hc]
      cases lookup o hash k c.f.stores <;> exact key _
    | build k =>
      simp only [Conc.step, hc]
      refine ⟨fun j hj => ?_, fun a ha b hb hab s hs => ?_⟩
      · by_cases e : j = i
        · subst e
          right
          exact ⟨c.f.built.length, by simp, Or.inl ⟨k, hself _⟩⟩
        · simp only [hoth _ j e]
          rcases h1 j hj with h | ⟨s, hs, h⟩
          · exact Or.inl h
          · exact Or.inr ⟨s, by simp; omega, h⟩
      · -- the new store's number is new
        have fresh : ∀ j ∈ js, j ≠ i →
            ¬ ((∃ k, c.calls[j]? = some (.insert k c.f.built.length)) ∨ c.calls[j]? = some (.done c.f.built.length)) := by
          intro j hj _ hh
          rcases h1 j hj with ⟨k', e⟩ | ⟨s, hs, e⟩
          · rcases hh with ⟨_, h⟩ | h <;> rw [e] at h <;> cases h
          · have : s = c.f.built.length := by
              rcases e with ⟨_, e⟩ | e <;> rcases hh with ⟨_, h⟩ | h <;> rw [e] at h <;> cases h <;> rfl
            omega
        simp only at hs ⊢
        by_cases ea : a = i
        · have hbi : b ≠ i := fun e => hab (ea.trans e.symm)
          subst ea
          rw [hoth _ b hbi]
          rw [hself] at hs
          have : s = c.f.built.length := by
            rcases hs with ⟨_, e⟩ | e <;> cases e; rfl
          subst this
          exact fresh b hb hbi
        · rw [hoth _ a ea] at hs
          by_cases eb : b = i
          · subst eb
            rw [hself]
            intro hh
            have : s = c.f.built.length := by
              rcases hh with ⟨_, e⟩ | e <;> cases e; rfl
            subst this
            exact fresh a ha ea hs
          · rw [hoth _ b eb]; exact h2 a ha b hb hab s hs
    | insert k s0 =>
      simp only [Conc.step, hc]
      have iff : ∀ (j s : Nat), ((∃ k', (c.calls.set i (.done s0))[j]? = some (Pc.insert k' s)) ∨
          (c.calls.set i (.done s0))[j]? = some (Pc.done s)) ↔
          ((∃ k', c.calls[j]? = some (Pc.insert k' s)) ∨ c.calls[j]? = some (Pc.done s)) := by
        intro j s
        by_cases e : j = i
        · subst e
          rw [hself, hc]
          constructor
          · rintro (⟨_, e⟩ | e) <;> cases e
            exact Or.inl ⟨k, rfl⟩
          · rintro (⟨_, e⟩ | e) <;> cases e
            exact Or.inr rfl
        · rw [hoth _ j e]
      refine ⟨fun j hj => ?_, fun a ha b hb hab s => ?_⟩
      · rcases h1 j hj with ⟨k', e⟩ | ⟨s, hs, e⟩
        · left
          have : j ≠ i := by intro e'; subst e'; rw [hc] at e; cases e
          simp only [hoth _ j this]
          exact ⟨k', e⟩
        · exact Or.inr ⟨s, hs, (iff j s).2 e⟩
      · simp only [iff]; exact h2 a ha b hb hab s

theorem apart_run (o : Ord α) (hash : α × List (α × α) → Nat) {js : List Nat} (is : List Nat) {c : Conc α} (h : Apart js c) :
    Apart js (c.run o hash is) := by
  induction is generalizing c with
  | nil => exact h
  | cons i is ih => exact ih (apart_step o hash h i)

/-- Calls that look before anything is stored all miss. -/
theorem all_look (o : Ord α) (hash : α × List (α × α) → Nat) : ∀ (js : List Nat) (c : Conc α), js.Nodup → c.f.stores = [] →
    (∀ i ∈ js, ∃ k, c.calls[i]? = some (.look k)) →
    (∀ i ∈ js, ∃ k, (c.run o hash js).calls[i]? = some (.build k)) ∧
    (∀ i, i ∉ js → (c.run o hash js).calls[i]? = c.calls[i]?) := by
  intro js
  induction js with
  | nil => intro c _ _ _; exact ⟨by simp, fun _ _ => rfl⟩
  | cons j js ih =>
    intro c hd hs hl
    rw [List.nodup_cons] at hd
    obtain ⟨k, hk⟩ := hl j (by simp)
    have hlt : j < c.calls.length := (List.getElem?_eq_some_iff.1 hk).1
    have hst : c.step o hash j = { c with calls := c.calls.set j (.build k) } := by
      simp [Conc.step, hk, hs, lookup]
    have hoth : ∀ i, i ≠ j → (c.calls.set j (.build k))[i]? = c.calls[i]? := fun i hi => by
      rw [List.getElem?_set_ne (Ne.symm hi)]
    obtain ⟨i1, i2⟩ := ih (c.step o hash j) hd.2 (by rw [hst]; exact hs) (fun i hi => by
      have hne : i ≠ j := fun e => hd.1 (e ▸ hi)
      rw [hst]
      simp only [hoth i hne]
      exact hl i (by simp [hi]))
    simp only [Conc.run]
    refine ⟨fun i hi => ?_, fun i hi => ?_⟩
    · rcases List.mem_cons.1 hi with rfl | hi
      · rw [i2 i hd.1, hst]
        exact ⟨k, by simp [hlt]⟩
      · exact i1 i hi
    · simp only [List.mem_cons, not_or] at hi
      rw [i2 i hi.2, hst]
      exact hoth i hi.1

/-- **C70 under concurrency, whatever the settings**: if some requests (`js`) all look into a new factory before
any of them has built its store, no two of them ever share a store, even with the same location and options,
whatever other requests there are and however the rest is interleaved. -/
theorem C70_violated_race_always (o : Ord α) (hash : α × List (α × α) → Nat) (ks : List (Key α)) (js rest : List Nat)
    (hd : js.Nodup) (hj : ∀ i ∈ js, i < ks.length) (i j : Nat) (hi : i ∈ js) (hj' : j ∈ js) (hij : i ≠ j) (s s' : Nat)
    (h : ((⟨⟨[], []⟩, ks.map .look⟩ : Conc α).run o hash (js ++ rest)).calls[i]? = some (.done s))
    (h' : ((⟨⟨[], []⟩, ks.map .look⟩ : Conc α).run o hash (js ++ rest)).calls[j]? = some (.done s')) : s ≠ s' := by
  have happ : ∀ (a b : List Nat) (c : Conc α), c.run o hash (a ++ b) = (c.run o hash a).run o hash b := by
    intro a
    induction a with
    | nil => intro b c; rfl
    | cons x a ih => intro b c; exact ih b _
  obtain ⟨l1, _⟩ := all_look o hash js (⟨⟨[], []⟩, ks.map .look⟩ : Conc α) hd rfl (fun i hi => by
    have := hj i hi
    exact ⟨ks[i], by simp [this]⟩)
  have hap : Apart js ((⟨⟨[], []⟩, ks.map .look⟩ : Conc α).run o hash js) := by
    refine ⟨fun i hi => Or.inl (l1 i hi), fun a ha b hb _ s hs => ?_⟩
    obtain ⟨k, hk⟩ := l1 a ha
    rcases hs with ⟨_, h⟩ | h <;> rw [hk] at h <;> cases h
  have := apart_run o hash rest hap
  rw [happ] at h h'
  intro e
  subst e
  exact this.2 i hi j hj' hij s (Or.inr h) (Or.inr h')

end Seafowl.StoreFactory
