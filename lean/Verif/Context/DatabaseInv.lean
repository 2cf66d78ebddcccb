import Verif.Context.DatabaseSpec
import Verif.Sql.TimeTravelProps
import Mathlib.Data.List.Nodup

/-!
The invariant between the pieces of the server and the tables of `DatabaseSpec`, kept by every operation, and from it that every
statement does what the specification allows (for C130).
-/

namespace Seafowl.Database

open Seafowl.TimeTravel (loadVersion)

variable {ρ : Type}

/-! ### lists -/

theorem forall2_map {α β : Type} {R S : α → β → Prop} {f : α → α} {g : β → β} {l : List α} {l' : List β}
    (h : List.Forall₂ R l l') (hS : ∀ e ∈ l, ∀ a, R e a → S (f e) (g a)) : List.Forall₂ S (l.map f) (l'.map g) := by
  induction h with
  | nil => exact .nil
  | cons h1 _ ih =>
    exact .cons (hS _ List.mem_cons_self _ h1) (ih fun e he => hS e (List.mem_cons_of_mem _ he))

theorem forall2_imp {α β : Type} {R S : α → β → Prop} {l : List α} {l' : List β}
    (h : List.Forall₂ R l l') (hS : ∀ e ∈ l, ∀ a, R e a → S e a) : List.Forall₂ S l l' := by
  have := forall2_map (f := id) (g := id) h hS
  simpa using this

theorem forall2_filter {α β : Type} {R : α → β → Prop} {f : α → Bool} {g : β → Bool} {l : List α} {l' : List β}
    (h : List.Forall₂ R l l') (hS : ∀ e a, R e a → f e = g a) : List.Forall₂ R (l.filter f) (l'.filter g) := by
  induction h with
  | nil => exact .nil
  | cons h1 _ ih =>
    rw [List.filter_cons, List.filter_cons, hS _ _ h1]
    split
    · exact .cons h1 ih
    · exact ih

theorem forall2_append {α β : Type} {R : α → β → Prop} {l k : List α} {l' k' : List β}
    (h : List.Forall₂ R l l') (h2 : List.Forall₂ R k k') : List.Forall₂ R (l ++ k) (l' ++ k') := by
  induction h with
  | nil => exact h2
  | cons h1 _ ih => exact .cons h1 ih

theorem forall2_find {α β : Type} {R : α → β → Prop} {f : α → Bool} {g : β → Bool} {l : List α} {l' : List β}
    (h : List.Forall₂ R l l') (hS : ∀ e a, R e a → f e = g a) :
    (l.find? f = none ∧ l'.find? g = none) ∨ ∃ e a, l.find? f = some e ∧ l'.find? g = some a ∧ R e a := by
  induction h with
  | nil => exact .inl ⟨rfl, rfl⟩
  | @cons a b _ _ h1 _ ih =>
    rw [List.find?_cons, List.find?_cons, hS _ _ h1]
    cases g b
    · exact ih
    · exact .inr ⟨_, _, rfl, rfl, h1⟩

theorem readAll_append (f : Nat → Option (List ρ)) (a b : List Nat) :
    readAll f (a ++ b) = match readAll f a, readAll f b with
      | some x, some y => some (x ++ y)
      | _, _ => none := by
  induction a with
  | nil =>
    simp only [List.nil_append, readAll]
    cases readAll f b <;> rfl
  | cons p a ih =>
    simp only [List.cons_append, readAll, ih]
    cases f p <;> cases readAll f a <;> cases readAll f b <;> simp

theorem readAll_congr {f g : Nat → Option (List ρ)} {l : List Nat} (h : ∀ p ∈ l, f p = g p) : readAll f l = readAll g l := by
  induction l with
  | nil => rfl
  | cons p l ih =>
    simp only [readAll]
    rw [h p List.mem_cons_self, ih fun x hx => h x (List.mem_cons_of_mem _ hx)]

theorem readAll_less {f g : Nat → Option (List ρ)} {l : List Nat} (h : ∀ p, g p = f p ∨ g p = none) :
    readAll g l = readAll f l ∨ readAll g l = none := by
  induction l with
  | nil => exact .inl rfl
  | cons p l ih =>
    simp only [readAll]
    rcases h p with h1 | h1
    · rw [h1]
      rcases ih with h2 | h2
      · rw [h2]
        exact .inl rfl
      · rw [h2]
        right
        cases f p <;> rfl
    · rw [h1]
      exact .inr rfl

theorem readAll_split {f : Nat → Option (List ρ)} (k : Nat → Bool) {l : List Nat} {r : List ρ} (h : readAll f l = some r) :
    ∃ r1 r2, readAll f (l.filter k) = some r1 ∧ readAll f (l.filter fun p => !k p) = some r2 ∧ r.Perm (r1 ++ r2) := by
  induction l generalizing r with
  | nil =>
    simp only [readAll, Option.some.injEq] at h
    subst h
    exact ⟨[], [], rfl, rfl, .refl _⟩
  | cons p l ih =>
    simp only [readAll] at h
    split at h
    · next x y hx hy =>
      cases h
      obtain ⟨r1, r2, h1, h2, h3⟩ := ih hy
      cases hk : k p
      · refine ⟨r1, x ++ r2, ?_, ?_, ?_⟩
        · simp [hk, h1]
        · simp [hk, readAll, hx, h2]
        · calc x ++ y
            _ |>.Perm (x ++ (r1 ++ r2)) := h3.append_left x
            _ |>.Perm (r1 ++ (x ++ r2)) := List.perm_append_comm_assoc x r1 r2
      · refine ⟨x ++ r1, r2, ?_, ?_, ?_⟩
        · simp [hk, readAll, hx, h1]
        · simp [hk, h2]
        · rw [List.append_assoc]
          exact h3.append_left x
    · cases h

theorem readAll_mem {f : Nat → Option (List ρ)} {l : List Nat} {r : List ρ} (h : readAll f l = some r) {x : ρ} (hx : x ∈ r) :
    ∃ p ∈ l, ∃ rows, f p = some rows ∧ x ∈ rows := by
  induction l generalizing r with
  | nil =>
    simp only [readAll, Option.some.injEq] at h
    subst h
    simp at hx
  | cons p l ih =>
    simp only [readAll] at h
    split at h
    · next a b ha hb =>
      cases h
      rcases List.mem_append.1 hx with hx | hx
      · exact ⟨p, List.mem_cons_self, a, ha, hx⟩
      · obtain ⟨p', h1, h2⟩ := ih hb hx
        exact ⟨p', List.mem_cons_of_mem _ h1, h2⟩
    · cases h

theorem live_snoc (log : List Commit) (c : Commit) :
    live (log ++ [c]) = (live log).filter (fun p => !c.removes.contains p) ++ c.adds := by
  simp [live, List.foldl_append]

theorem mem_live_aux (log : List Commit) (l0 : List Nat) {p : Nat}
    (h : p ∈ log.foldl (fun l c => l.filter (fun p => !c.removes.contains p) ++ c.adds) l0) : p ∈ l0 ∨ ∃ c ∈ log, p ∈ c.adds := by
  induction log generalizing l0 with
  | nil => exact .inl h
  | cons c log ih =>
    rcases ih _ h with h1 | ⟨c', h1, h2⟩
    · rcases List.mem_append.1 h1 with h2 | h2
      · exact .inl (List.mem_filter.1 h2).1
      · exact .inr ⟨c, List.mem_cons_self, h2⟩
    · exact .inr ⟨c', List.mem_cons_of_mem _ h1, h2⟩

theorem mem_live {log : List Commit} {p : Nat} (h : p ∈ live log) : ∃ c ∈ log, p ∈ c.adds := by
  rcases mem_live_aux log [] h with h1 | h1
  · simp at h1
  · exact h1

/-! ### the tables and the pieces that make them up -/

/-- Name and directory of the tables. -/
def World.keys (w : World ρ) : List (String × Nat) := w.entries.map fun e => (e.name, e.uuid)

/-- A log and files that make up a table. -/
structure Good (log : List Commit) (files : Nat → Option (List ρ)) (path : Nat) (now : Nat) (a : Tab ρ) : Prop where
  times : log.map (·.time) = a.hist.map (·.1)
  ne : log ≠ []
  mono : (log.map (·.time)).Pairwise (· < ·)
  past : ∀ c ∈ log, c.time < now
  paths : ∀ c ∈ log, ∀ p ∈ c.adds, p < path
  kept : a.kept < log.length
  rows : ∀ (v : Nat) h, a.hist[v]? = some h → (∃ r, readAll files (live (log.take (v + 1))) = some r ∧ r.Perm h.2) ∨
    (v < a.kept ∧ readAll files (live (log.take (v + 1))) = none)

structure TabOk (w : World ρ) (k : String × Nat) (a : Tab ρ) : Prop where
  name : a.name = k.1
  broken : a.intact = false → w.log k.2 = []
  good : a.intact = true → Good (w.log k.2) (w.files k.2) w.path w.now a

structure Sim (w : World ρ) (d : Db ρ) : Prop where
  rel : List.Forall₂ (TabOk w) w.keys d
  names : (w.keys.map (·.1)).Nodup
  uuids : (w.keys.map (·.2)).Nodup
  fresh : ∀ k ∈ w.keys, k.2 < w.uuid

theorem Good.len {log : List Commit} {files : Nat → Option (List ρ)} {path : Nat} {now : Nat} {a : Tab ρ}
    (h : Good log files path now a) : a.hist.length = log.length := by
  have := congrArg List.length h.times
  simpa using this.symm

theorem Good.weaken {log : List Commit} {files files' : Nat → Option (List ρ)} {path path' : Nat} {now now' : Nat} {a : Tab ρ}
    (h : Good log files path now a) (hf : ∀ p < path, files' p = files p) (hp : path ≤ path') (hn : now ≤ now') :
    Good log files' path' now' a := by
  refine ⟨h.times, h.ne, h.mono, fun c hc => Nat.lt_of_lt_of_le (h.past c hc) hn,
    fun c hc p hp' => Nat.lt_of_lt_of_le (h.paths c hc p hp') hp, h.kept, ?_⟩
  intro v x hx
  have : readAll files' (live (log.take (v + 1))) = readAll files (live (log.take (v + 1))) := by
    apply readAll_congr
    intro p hp'
    obtain ⟨c, hc, hpc⟩ := mem_live hp'
    exact hf p (h.paths c (List.mem_of_mem_take hc) p hpc)
  rw [this]
  exact h.rows v x hx

theorem TabOk.weaken {w w' : World ρ} {k : String × Nat} {a : Tab ρ} (h : TabOk w k a) (hl : w'.log k.2 = w.log k.2)
    (hf : ∀ p < w.path, w'.files k.2 p = w.files k.2 p) (hp : w.path ≤ w'.path) (hn : w.now ≤ w'.now) : TabOk w' k a := by
  refine ⟨h.name, fun hb => by rw [hl, h.broken hb], fun hi => ?_⟩
  rw [hl]
  exact (h.good hi).weaken hf hp hn

/-- The world goes on, except for one directory. -/
structure Frame (w w' : World ρ) (u : Nat) : Prop where
  log : ∀ x, x ≠ u → w'.log x = w.log x
  files : ∀ x, x ≠ u → w'.files x = w.files x
  path : w.path ≤ w'.path
  now : w.now ≤ w'.now
  uuid : w.uuid ≤ w'.uuid

theorem Frame.refl (w : World ρ) (u : Nat) : Frame w w u :=
  ⟨fun _ _ => rfl, fun _ _ => rfl, Nat.le_refl _, Nat.le_refl _, Nat.le_refl _⟩

theorem Frame.trans {w w' w'' : World ρ} {u : Nat} (h : Frame w w' u) (h' : Frame w' w'' u) : Frame w w'' u :=
  ⟨fun x hx => (h'.log x hx).trans (h.log x hx), fun x hx => (h'.files x hx).trans (h.files x hx),
    Nat.le_trans h.path h'.path, Nat.le_trans h.now h'.now, Nat.le_trans h.uuid h'.uuid⟩

/-- Nothing the tables are made of has changed. -/
theorem Sim.same {w w' : World ρ} {d : Db ρ} (h : Sim w d) (hk : w'.keys = w.keys)
    (hl : ∀ k ∈ w.keys, w'.log k.2 = w.log k.2) (hf : ∀ k ∈ w.keys, ∀ p < w.path, w'.files k.2 p = w.files k.2 p)
    (hp : w.path ≤ w'.path) (hn : w.now ≤ w'.now) (hu : w.uuid ≤ w'.uuid) : Sim w' d := by
  refine ⟨?_, by rw [hk]; exact h.names, by rw [hk]; exact h.uuids, ?_⟩
  · rw [hk]
    exact forall2_imp h.rel fun k hk' a ha => ha.weaken (hl k hk') (hf k hk') hp hn
  · intro k hk'
    rw [hk] at hk'
    exact Nat.lt_of_lt_of_le (h.fresh k hk') hu

theorem nodup_key {l : List (String × Nat)} (h1 : (l.map (·.1)).Nodup) {k k' : String × Nat} (hk : k ∈ l) (hk' : k' ∈ l)
    (h : k.1 = k'.1) : k = k' := by
  induction l with
  | nil => simp at hk
  | cons x l ih =>
    rw [List.map_cons, List.nodup_cons] at h1
    rcases List.mem_cons.1 hk with rfl | hk1 <;> rcases List.mem_cons.1 hk' with rfl | hk2
    · rfl
    · exact absurd (h ▸ List.mem_map_of_mem hk2) h1.1
    · exact absurd (h ▸ List.mem_map_of_mem hk1) h1.1
    · exact ih h1.2 hk1 hk2

theorem nodup_uuid {l : List (String × Nat)} (h1 : (l.map (·.2)).Nodup) {k k' : String × Nat} (hk : k ∈ l) (hk' : k' ∈ l)
    (h : k.2 = k'.2) : k = k' := by
  induction l with
  | nil => simp at hk
  | cons x l ih =>
    rw [List.map_cons, List.nodup_cons] at h1
    rcases List.mem_cons.1 hk with rfl | hk1 <;> rcases List.mem_cons.1 hk' with rfl | hk2
    · rfl
    · exact absurd (h ▸ List.mem_map_of_mem hk2) h1.1
    · exact absurd (h ▸ List.mem_map_of_mem hk1) h1.1
    · exact ih h1.2 hk1 hk2

/-- One table has changed. -/
theorem Sim.alter {w w' : World ρ} {d : Db ρ} (h : Sim w d) {k : String × Nat} (hmem : k ∈ w.keys) (hk : w'.keys = w.keys)
    (hF : Frame w w' k.2) {f : Tab ρ → Tab ρ} (hf : ∀ a ∈ d, TabOk w k a → TabOk w' k (f a)) : Sim w' (d.alter k.1 f) := by
  refine ⟨?_, by rw [hk]; exact h.names, by rw [hk]; exact h.uuids, ?_⟩
  · rw [hk]
    have key : ∀ l l', List.Forall₂ (TabOk w) l l' → (∀ k' ∈ l, k' ∈ w.keys) → (∀ a ∈ l', a ∈ d) →
        List.Forall₂ (TabOk w') l (Db.alter l' k.1 f) := by
      intro l l' hll
      induction hll with
      | nil => intro _ _; exact .nil
      | @cons k' a l l' h1 _ ih =>
        intro hm hd
        refine .cons ?_ (ih (fun x hx => hm x (List.mem_cons_of_mem _ hx)) fun x hx => hd x (List.mem_cons_of_mem _ hx))
        have hm1 := hm k' List.mem_cons_self
        show TabOk w' k' (if a.name = k.1 then f a else a)
        by_cases hn : a.name = k.1
        · rw [if_pos hn]
          have : k' = k := nodup_key h.names hm1 hmem (by rw [← hn, h1.name])
          subst this
          exact hf a (hd a List.mem_cons_self) h1
        · rw [if_neg hn]
          have hne : k'.2 ≠ k.2 := by
            intro he
            have : k' = k := nodup_uuid h.uuids hm1 hmem he
            subst this
            exact hn h1.name
          exact h1.weaken (hF.log _ hne) (fun p _ => by rw [hF.files _ hne]) hF.path hF.now
    exact key _ _ h.rel (fun _ hk => hk) fun _ ha => ha
  · intro k hk'
    rw [hk] at hk'
    exact Nat.lt_of_lt_of_le (h.fresh k hk') hF.uuid

/-! ### finding and reading -/

theorem find_key (w : World ρ) (n : String) : (w.find n).map (fun e => (e.name, e.uuid)) = w.keys.find? fun k => k.1 == n := by
  unfold World.find World.keys
  rw [List.find?_map]
  rfl

theorem Sim.find {w : World ρ} {d : Db ρ} (h : Sim w d) (n : String) : (w.find n = none ∧ d.find n = none) ∨
    ∃ e a, w.find n = some e ∧ d.find n = some a ∧ e.name = n ∧ (e.name, e.uuid) ∈ w.keys ∧ TabOk w (n, e.uuid) a ∧ a ∈ d := by
  have hfk := find_key w n
  rcases forall2_find (f := fun k => k.1 == n) (g := fun a => a.name == n) h.rel (fun k a hka => by rw [hka.name])
    with ⟨h1, h2⟩ | ⟨k, a, h1, h2, h3⟩
  · left
    refine ⟨?_, h2⟩
    rw [h1] at hfk
    exact Option.map_eq_none_iff.1 hfk
  · right
    rw [h1, Option.map_eq_some_iff] at hfk
    obtain ⟨e, he, rfl⟩ := hfk
    have hn : e.name = n := by simpa using List.find?_some h1
    refine ⟨e, a, he, h2, hn, List.mem_of_find?_eq_some h1, ?_, List.mem_of_find?_eq_some h2⟩
    rw [← hn]
    exact h3

theorem Sim.look_none {w : World ρ} {d : Db ρ} (h : Sim w d) {n : String} (hl : w.look n = none) : ¬ d.Usable n := by
  rintro ⟨a, ha, hi⟩
  rcases h.find n with ⟨-, h2⟩ | ⟨e, a', h1, h2, -, -, h3, -⟩
  · rw [h2] at ha
    cases ha
  · rw [h2] at ha
    cases ha
    have := (h3.good hi).ne
    simp only [World.look, h1, List.isEmpty_iff, this, if_false] at hl
    cases hl

theorem Sim.look_some {w : World ρ} {d : Db ρ} (h : Sim w d) {n : String} {e : Entry} (hl : w.look n = some e) :
    ∃ a, w.find n = some e ∧ d.find n = some a ∧ a.intact = true ∧ (n, e.uuid) ∈ w.keys ∧ TabOk w (n, e.uuid) a ∧ a ∈ d ∧
      Good (w.log e.uuid) (w.files e.uuid) w.path w.now a := by
  rcases h.find n with ⟨h1, -⟩ | ⟨e', a, h1, h2, hn, hm, h3, h4⟩
  · simp [World.look, h1] at hl
  · simp only [World.look, h1] at hl
    split at hl
    · cases hl
    · next hne =>
      cases hl
      have hi : a.intact = true := by
        cases hi : a.intact
        · exact absurd (h3.broken hi) (by simpa using hne)
        · rfl
      rw [hn] at hm
      exact ⟨a, h1, h2, hi, hm, h3, h4, h3.good hi⟩

theorem search_early (ts : Nat → Int) (t : Int) : ∀ lo hi v, (∀ x, lo ≤ x → x < hi → t < ts x) → lo = 0 → v = 0 ∨ lo < hi →
    TimeTravel.search ts t lo hi v = 0 := by
  intro lo hi v
  induction lo, hi, v using TimeTravel.search.induct ts t with
  | case1 lo hi v hlt pivot heq =>
    intro h _ _
    have hp : pivot = (lo + (hi - 1)) / 2 := rfl
    have := h pivot (by omega) (by omega)
    omega
  | case2 lo hi v hlt pivot hne hlt2 ih =>
    intro h _ _
    have hp : pivot = (lo + (hi - 1)) / 2 := rfl
    have := h pivot (by omega) (by omega)
    omega
  | case3 lo hi v hlt pivot hne hge ih =>
    intro h h0 _
    have hp : pivot = (lo + (hi - 1)) / 2 := rfl
    unfold TimeTravel.search
    rw [if_pos hlt]
    simp only
    rw [if_neg hne, if_neg hge]
    refine ih (fun x h1 h2 => h x h1 (by omega)) h0 ?_
    omega
  | case4 lo hi v hlt =>
    intro h h0 hv
    unfold TimeTravel.search
    rw [if_neg hlt]
    omega

/-- The version delta-rs loads for a time. -/
theorem Good.version {log : List Commit} {files : Nat → Option (List ρ)} {path : Nat} {now : Nat} {a : Tab ρ}
    (h : Good log files path now a) (t : Nat) :
    let v := loadVersion (fun v => ((log[v]?).map (·.time)).getD 0) 0 (log.length - 1) t
    AsOf a.hist t v ∨ ((∀ x ∈ a.hist, t < x.1) ∧ v = 0) := by
  intro v
  have hpos : 0 < log.length := List.length_pos_iff.2 h.ne
  have hlen := h.len
  have hts : ∀ (i : Nat) x, a.hist[i]? = some x → (((log[i]?).map (·.time)).getD 0 : Int) = x.1 := by
    intro i x hx
    have := congrArg (fun l : List Nat => l[i]?) h.times
    simp only [List.getElem?_map, hx, Option.map_some] at this
    rw [Option.map_eq_some_iff] at this
    obtain ⟨c, hc, ht⟩ := this
    simp [hc, ht]
  have hmono : ∀ (i j : Nat) x y, a.hist[i]? = some x → a.hist[j]? = some y → i < j → x.1 < y.1 := by
    intro i j x y hx hy hij
    have hm := h.mono
    rw [h.times] at hm
    rw [List.pairwise_iff_getElem] at hm
    obtain ⟨hi, rfl⟩ := List.getElem?_eq_some_iff.1 hx
    obtain ⟨hj, rfl⟩ := List.getElem?_eq_some_iff.1 hy
    have := hm i j (by simpa using hi) (by simpa using hj) hij
    rw [List.getElem_map, List.getElem_map] at this
    exact this
  have hget : ∀ i, i < log.length → ∃ x, a.hist[i]? = some x := fun i hi =>
    ⟨_, List.getElem?_eq_getElem (by omega)⟩
  obtain ⟨x0, hx0⟩ := hget 0 hpos
  by_cases ht : x0.1 ≤ t
  · left
    obtain ⟨-, h1, h2, h3⟩ := TimeTravel.C45_newest_partial (fun v => ((log[v]?).map (·.time)).getD 0) 0 (log.length - 1) t
      (by
        intro i j _ hij hj
        obtain ⟨x, hx⟩ := hget i (by omega)
        obtain ⟨y, hy⟩ := hget j (by omega)
        have e1 := hts i x hx
        have e2 := hts j y hy
        have := hmono i j x y hx hy hij
        omega)
      (Nat.zero_le _) (by
        have := hts 0 x0 hx0
        omega)
    obtain ⟨x, hx⟩ := hget v (by omega)
    have e1 := hts v x hx
    refine ⟨x, hx, ?_, ?_⟩
    · change ((log[v]?.map (·.time)).getD 0 : Int) ≤ t at h2
      omega
    · intro j y hy hyt
      have hj : j < log.length := by
        have := (List.getElem?_eq_some_iff.1 hy).1
        omega
      have := hts j y hy
      exact h3 j (Nat.zero_le _) (by omega) (by show ((log[j]?.map (·.time)).getD 0 : Int) ≤ t; omega)
  · right
    have hall : ∀ x ∈ a.hist, t < x.1 := by
      intro x hx
      obtain ⟨i, hi⟩ := List.getElem?_of_mem hx
      by_cases hi0 : i = 0
      · subst hi0
        rw [hx0] at hi
        cases hi
        omega
      · have := hmono 0 i x0 x hx0 hi (by omega)
        omega
    refine ⟨hall, ?_⟩
    have : TimeTravel.search (fun v => ((log[v]?).map (·.time)).getD 0) t 0 (log.length - 1 + 1) 0 = 0 := by
      refine search_early _ _ _ _ _ ?_ rfl (.inl rfl)
      intro i _ hi
      obtain ⟨x, hx⟩ := hget i (by omega)
      have e1 := hts i x hx
      have := hall x (List.mem_of_getElem? hx)
      omega
    change loadVersion _ 0 _ _ = 0
    unfold loadVersion
    rw [this]
    rfl

/-- The newest version can be read. -/
theorem Good.current {log : List Commit} {files : Nat → Option (List ρ)} {path : Nat} {now : Nat} {a : Tab ρ}
    (h : Good log files path now a) :
    ∃ τ r r', a.hist.getLast? = some (τ, r) ∧ readAll files (live log) = some r' ∧ r'.Perm r := by
  have hpos : 0 < log.length := List.length_pos_iff.2 h.ne
  have hlen := h.len
  have hlast : a.hist[a.hist.length - 1]? = some (a.hist[a.hist.length - 1]'(by omega)) := List.getElem?_eq_getElem (by omega)
  generalize a.hist[a.hist.length - 1]'(by omega) = x at hlast
  have htake : log.take (a.hist.length - 1 + 1) = log := List.take_of_length_le (by omega)
  have hk := h.kept
  rcases h.rows _ x hlast with ⟨r, h1, h2⟩ | ⟨h1, -⟩
  · rw [htake] at h1
    exact ⟨x.1, x.2, r, by rw [List.getLast?_eq_getElem?, hlast], h1, h2⟩
  · omega

theorem Sim.read {w : World ρ} {d : Db ρ} (h : Sim w d) (x : String × Option Nat) : Reads d x (w.read x) := by
  obtain ⟨n, t⟩ := x
  cases hl : w.look n with
  | none =>
    simp only [World.read, hl]
    exact .unusable (h.look_none hl)
  | some e =>
    obtain ⟨a, hf, hd, hi, hm, hk, -, hg⟩ := h.look_some hl
    cases t with
    | none =>
      simp only [World.read, hl, World.rowsAt, World.latest]
      obtain ⟨τ, r, r', h1, h2, h3⟩ := hg.current
      have hpos : 0 < (w.log e.uuid).length := List.length_pos_iff.2 hg.ne
      rw [List.take_of_length_le (by omega), h2]
      exact .current hd hi h1 h3
    | some t =>
      simp only [World.read, hl, World.rowsAt, World.latest]
      have hv := hg.version t
      simp only at hv
      generalize loadVersion (fun v => (((w.log e.uuid)[v]?).map (·.time)).getD 0) 0 ((w.log e.uuid).length - 1) t = v at hv ⊢
      rcases hv with hv | ⟨h1, h2⟩
      · obtain ⟨y, hy, -⟩ := id hv
        rcases hg.rows v y hy with ⟨r, h1, h2⟩ | ⟨h1, h2⟩
        · rw [h1]
          exact .past (τ := y.1) (r := y.2) hd hi hv hy h2
        · rw [h2]
          exact .gone hd hi hv h1
      · subst h2
        have hpos : 0 < (w.log e.uuid).length := List.length_pos_iff.2 hg.ne
        have hlen := hg.len
        have hy : a.hist[0]? = some (a.hist[0]'(by omega)) := List.getElem?_eq_getElem (by omega)
        generalize a.hist[0]'(by omega) = y at hy
        rcases hg.rows 0 y hy with ⟨r, h3, h4⟩ | ⟨h3, h4⟩
        · rw [h3]
          exact .early (τ := y.1) (r := y.2) hd hi h1 hy h4
        · rw [h4]
          exact .earlyGone hd hi h1 h3

theorem Sim.query {w : World ρ} {d : Db ρ} (h : Sim w d) (q : Query ρ) : Answer d q (w.query q) := by
  have key : ∀ l : List (String × Option Nat), (∃ xs, l.mapM w.read = some xs ∧ List.Forall₂ (fun a x => Reads d a (some x)) l xs) ∨
      (l.mapM w.read = none ∧ ∃ a ∈ l, Reads d a none) := by
    intro l
    induction l with
    | nil => exact .inl ⟨[], rfl, .nil⟩
    | cons a l ih =>
      have ha := h.read a
      rw [List.mapM_cons]
      cases hr : w.read a with
      | none =>
        rw [hr] at ha
        exact .inr ⟨rfl, a, List.mem_cons_self, ha⟩
      | some x =>
        rw [hr] at ha
        rcases ih with ⟨xs, h1, h2⟩ | ⟨h1, b, h2, h3⟩
        · left
          refine ⟨x :: xs, ?_, .cons ha h2⟩
          rw [h1]
          rfl
        · right
          refine ⟨?_, b, List.mem_cons_of_mem _ h2, h3⟩
          rw [h1]
          rfl
  unfold World.query
  rcases key q.reads with ⟨xs, h1, h2⟩ | ⟨h1, h2⟩
  · rw [h1]
    exact ⟨xs, h2, rfl⟩
  · rw [h1]
    exact h2

/-! ### operations -/

theorem applyAll_append (w : World ρ) (a b : List (Op ρ)) : w.applyAll (a ++ b) = (w.applyAll a).applyAll b := by
  simp [World.applyAll, List.foldl_append]

theorem carry_hard (w : World ρ) (ops : List (Op ρ)) (res : Res ρ) (f : Fault) :
    w.carry ⟨[], ops, res⟩ f = (w.applyAll ops, res) ∨
      ((f != .none) = true ∧ ∃ k < ops.length, w.carry ⟨[], ops, res⟩ f = (w.applyAll (ops.take k), .failed)) := by
  cases f with
  | none => exact .inl (by simp [World.carry])
  | error k =>
    by_cases hk : k < ops.length
    · exact .inr ⟨rfl, k, hk, by simp [World.carry, hk]⟩
    · exact .inl (by simp [World.carry, hk])
  | crash k =>
    by_cases hk : k < ops.length
    · exact .inr ⟨rfl, k, hk, by simp [World.carry, hk]⟩
    · exact .inl (by simp [World.carry, hk])

theorem puts_take (u : Nat) (cs : List (List ρ)) : ∀ (p : Nat) (k : Nat), (puts u p cs).take k = puts u p (cs.take k) := by
  induction cs with
  | nil => intro p k; simp [puts]
  | cons c cs ih =>
    intro p k
    cases k with
    | zero => simp [puts]
    | succ k => simp [puts, ih]

theorem puts_length (u : Nat) (cs : List (List ρ)) : ∀ p : Nat, (puts u p cs).length = cs.length := by
  induction cs with
  | nil => intro p; rfl
  | cons c cs ih => intro p; simp [puts, ih]

/-- The uploads of new files. -/
structure Uploaded (w w' : World ρ) (u : Nat) (cs : List (List ρ)) : Prop where
  entries : w'.entries = w.entries
  log : w'.log = w.log
  uuid : w'.uuid = w.uuid
  now : w'.now = w.now
  path : w.path ≤ w'.path
  others : ∀ x, x ≠ u → w'.files x = w.files x
  old : ∀ p < w.path, w'.files u p = w.files u p
  new : readAll (w'.files u) (names w.path cs) = some cs.flatten
  below : ∀ p ∈ names w.path cs, p < w'.path

theorem puts_spec (u : Nat) (cs : List (List ρ)) : ∀ w : World ρ, Uploaded w (w.applyAll (puts u w.path cs)) u cs := by
  induction cs with
  | nil =>
    intro w
    exact ⟨rfl, rfl, rfl, rfl, Nat.le_refl _, fun _ _ => rfl, fun _ _ => rfl, rfl, by simp [names]⟩
  | cons c cs ih =>
    intro w
    have h := ih (w.apply (.put u w.path c))
    have hp : (w.apply (.put u w.path c)).path = w.path + 1 := by simp [World.apply]
    have he : (w.apply (.put u w.path c)).applyAll (puts u (w.apply (.put u w.path c)).path cs) =
        w.applyAll (puts u w.path (c :: cs)) := by
      rw [hp]
      rfl
    rw [he] at h
    have h1 : (w.applyAll (puts u w.path (c :: cs))).files u w.path = some c := by
      rw [h.old w.path (by rw [hp]; omega)]
      simp [World.apply, set]
    refine ⟨h.entries, h.log, h.uuid, h.now, ?_, ?_, ?_, ?_, ?_⟩
    · have := h.path
      omega
    · intro x hx
      rw [h.others x hx]
      simp [World.apply, set, hx]
    · intro p hpw
      rw [h.old p (by omega)]
      simp only [World.apply, set, if_true]
      rw [if_neg (by omega)]
    · have h2 := h.new
      rw [hp] at h2
      simp [names, readAll, h1, h2]
    · intro p hpm
      simp only [names, List.mem_cons] at hpm
      rcases hpm with rfl | hpm
      · have := h.path
        omega
      · exact h.below p (by rw [hp]; exact hpm)

theorem Uploaded.sim {w w' : World ρ} {u : Nat} {cs : List (List ρ)} {d : Db ρ} (h : Uploaded w w' u cs) (hs : Sim w d) :
    Sim w' d := by
  refine hs.same (by simp [World.keys, h.entries]) (fun k _ => by rw [h.log]) ?_ h.path (Nat.le_of_eq h.now.symm) (Nat.le_of_eq h.uuid.symm)
  intro k _ p hp
  by_cases hk : k.2 = u
  · rw [hk]
    exact h.old p hp
  · rw [h.others _ hk]

theorem getElem?_snoc {α : Type} {l : List α} {x y : α} {v : Nat} (h : (l ++ [x])[v]? = some y) :
    l[v]? = some y ∨ (v = l.length ∧ y = x) := by
  rw [List.getElem?_append] at h
  split at h
  · exact .inl h
  · next hv =>
    right
    have : v - l.length = 0 := by
      have := (List.getElem?_eq_some_iff.1 h).1
      simp at this
      omega
    rw [this] at h
    simp at h
    exact ⟨by omega, h.symm⟩

theorem Good.push {log : List Commit} {files : Nat → Option (List ρ)} {path : Nat} {now : Nat} {a : Tab ρ}
    (h : Good log files path now a) {adds removes : List Nat} {r r' : List ρ} (ha : ∀ p ∈ adds, p < path)
    (hr : readAll files (live (log ++ [⟨now, adds, removes⟩])) = some r') (hp : r'.Perm r) :
    Good (log ++ [⟨now, adds, removes⟩]) files path (now + 1) (a.push now r) := by
  have hlen := h.len
  refine ⟨by simp [Tab.push, h.times], by simp, ?_, ?_, ?_, ?_, ?_⟩
  · rw [List.map_append, List.pairwise_append]
    refine ⟨h.mono, by simp, ?_⟩
    intro x hx y hy
    simp only [List.map_cons, List.map_nil, List.mem_singleton] at hy
    subst hy
    obtain ⟨c, hc, rfl⟩ := List.mem_map.1 hx
    exact h.past c hc
  · intro c hc
    rcases List.mem_append.1 hc with hc | hc
    · have := h.past c hc
      omega
    · simp only [List.mem_singleton] at hc
      subst hc
      simp
  · intro c hc
    rcases List.mem_append.1 hc with hc | hc
    · exact h.paths c hc
    · simp only [List.mem_singleton] at hc
      subst hc
      exact ha
  · have := h.kept
    simp only [Tab.push, List.length_append, List.length_singleton]
    omega
  · intro v x hx
    rcases getElem?_snoc hx with hx | ⟨rfl, rfl⟩
    · have hv := (List.getElem?_eq_some_iff.1 hx).1
      rw [List.take_append_of_le_length (by omega)]
      exact h.rows v x hx
    · left
      refine ⟨r', ?_, hp⟩
      rw [List.take_of_length_le (by simp; omega)]
      exact hr

theorem TabOk.intact {w : World ρ} {k : String × Nat} {a : Tab ρ} (h : TabOk w k a) (hl : w.log k.2 ≠ []) : a.intact = true := by
  cases hi : a.intact
  · exact absurd (h.broken hi) hl
  · rfl

/-- A new version of a table. -/
theorem commit_sim {w : World ρ} {d : Db ρ} (h : Sim w d) {n : String} {u : Nat} (hm : (n, u) ∈ w.keys) (hl : w.log u ≠ [])
    {adds removes : List Nat} {r r' : List ρ} (ha : ∀ p ∈ adds, p < w.path)
    (hr : readAll (w.files u) (live (w.log u ++ [⟨w.now, adds, removes⟩])) = some r') (hp : r'.Perm r) :
    Sim (w.apply (.commit u adds removes)) (d.alter n (·.push w.now r)) := by
  refine h.alter (w' := w.apply (.commit u adds removes)) hm rfl
    ⟨?_, fun _ _ => rfl, Nat.le_refl _, by simp [World.apply], Nat.le_refl _⟩ ?_
  · intro x hx
    simp only [World.apply, set]
    rw [if_neg hx]
  · intro a _ hk
    have hi := hk.intact hl
    refine ⟨hk.name, fun hb => absurd (hi.symm.trans hb) (by simp), fun _ => ?_⟩
    have := (hk.good hi).push ha hr hp
    simpa [World.apply, set] using this

theorem record_keys (w : World ρ) (u : Nat) : (w.apply (.record u)).keys = w.keys := by
  simp only [World.keys, World.apply, List.map_map]
  apply List.map_congr_left
  intro e _
  simp only [Function.comp]
  split <;> rfl

theorem record_sim {w : World ρ} {d : Db ρ} (h : Sim w d) (u : Nat) : Sim (w.apply (.record u)) d :=
  h.same (record_keys w u) (fun _ _ => rfl) (fun _ _ _ _ => rfl) (Nat.le_refl _) (Nat.le_refl _) (Nat.le_refl _)

/-- Uploads, a new version, its record. -/
theorem store_sim {w : World ρ} {d : Db ρ} (h : Sim w d) {n : String} {u : Nat} (hm : (n, u) ∈ w.keys) (hl : w.log u ≠ [])
    {cs : List (List ρ)} {removes : List Nat} {r r1 : List ρ}
    (hr : readAll (w.files u) ((live (w.log u)).filter fun p => !removes.contains p) = some r1)
    (hlive : ∀ p ∈ live (w.log u), p < w.path) (hp : (r1 ++ cs.flatten).Perm r) :
    let ops := puts u w.path cs ++ [.commit u (names w.path cs) removes, .record u]
    (Sim (w.applyAll ops) (d.alter n (·.push w.now r)) ∧ (w.applyAll ops).now = w.now + 1) ∧
    ∀ k < ops.length, (Sim (w.applyAll (ops.take k)) d ∧ (w.applyAll (ops.take k)).now = w.now) ∨
      (Sim (w.applyAll (ops.take k)) (d.alter n (·.push w.now r)) ∧ (w.applyAll (ops.take k)).now = w.now + 1) := by
  intro ops
  have hu := puts_spec u cs w
  have hs1 := hu.sim h
  have hkeys : (w.applyAll (puts u w.path cs)).keys = w.keys := by simp [World.keys, hu.entries]
  have hr1 : readAll ((w.applyAll (puts u w.path cs)).files u) ((live (w.log u)).filter fun p => !removes.contains p) = some r1 := by
    rw [← hr]
    apply readAll_congr
    intro p hp'
    exact hu.old p (hlive p (List.mem_filter.1 hp').1)
  have hc := commit_sim (w := w.applyAll (puts u w.path cs)) (r' := r1 ++ cs.flatten) hs1 (by rw [hkeys]; exact hm)
    (by rw [hu.log]; exact hl) (adds := names w.path cs) (removes := removes) hu.below (by
      rw [live_snoc, hu.log, readAll_append]
      simp only
      rw [hr1, hu.new]) hp
  rw [hu.now] at hc
  have hn : ((w.applyAll (puts u w.path cs)).apply (.commit u (names w.path cs) removes)).now = w.now + 1 := by
    show (w.applyAll (puts u w.path cs)).now + 1 = _
    rw [hu.now]
  refine ⟨?_, ?_⟩
  · have e : w.applyAll ops = ((w.applyAll (puts u w.path cs)).apply (.commit u (names w.path cs) removes)).apply (.record u) := by
      rw [applyAll_append]
      rfl
    rw [e]
    exact ⟨record_sim hc u, hn⟩
  · intro k hk
    have hlen : ops.length = cs.length + 2 := by simp [ops, puts_length]
    by_cases h1 : k ≤ cs.length
    · left
      have e : ops.take k = puts u w.path (cs.take k) := by
        rw [List.take_append_of_le_length (by rw [puts_length]; exact h1), puts_take]
      rw [e]
      have hu' := puts_spec u (cs.take k) w
      exact ⟨hu'.sim h, hu'.now⟩
    · right
      have e : ops.take k = puts u w.path cs ++ [.commit u (names w.path cs) removes] := by
        rw [List.take_append, puts_length, List.take_of_length_le (by rw [puts_length]; omega)]
        have : k - cs.length = 1 := by omega
        rw [this]
        rfl
      rw [e, applyAll_append]
      exact ⟨hc, hn⟩

theorem live_lt {log : List Commit} {files : Nat → Option (List ρ)} {path : Nat} {now : Nat} {a : Tab ρ}
    (h : Good log files path now a) : ∀ p ∈ live log, p < path := by
  intro p hp
  obtain ⟨c, hc, hpc⟩ := mem_live hp
  exact h.paths c hc p hpc

/-! ### statements -/

theorem carry_refuse (w : World ρ) (f : Fault) : w.carry Plan.refuse f = (w, .refused) := by
  cases f <;> simp [World.carry, Plan.refuse, World.applyAll]

theorem mk_sim {w : World ρ} {d : Db ρ} (h : Sim w d) : Sim (w.apply (.mk w.uuid)) d := by
  refine h.same rfl ?_ (fun _ _ _ _ => rfl) (Nat.le_refl _) (by simp [World.apply]) (by simp only [World.apply]; omega)
  intro k hk
  have := h.fresh k hk
  simp only [World.apply, set]
  rw [if_neg (by omega)]

theorem enter_sim {w : World ρ} {d : Db ρ} (h : Sim w d) {n : String} (hn : w.find n = none) :
    Sim ((w.apply (.mk w.uuid)).apply (.enter n w.uuid)) (d ++ [⟨n, [(w.now, [])], 0, true⟩]) := by
  have h1 := mk_sim h
  have hkeys : ((w.apply (.mk w.uuid)).apply (.enter n w.uuid)).keys = w.keys ++ [(n, w.uuid)] := by
    simp [World.keys, World.apply]
  have hnew : ∀ k ∈ w.keys, k.1 ≠ n := by
    intro k hk he
    have := find_key w n
    rw [hn, Option.map_none, eq_comm, List.find?_eq_none] at this
    exact this k hk (by simp [he])
  refine ⟨?_, ?_, ?_, ?_⟩
  · rw [hkeys]
    refine forall2_append ?_ (.cons ?_ .nil)
    · exact forall2_imp h1.rel fun k _ a ha =>
        ha.weaken (w' := (w.apply (.mk w.uuid)).apply (.enter n w.uuid)) rfl (fun _ _ => rfl) (Nat.le_refl _) (Nat.le_refl _)
    · refine ⟨rfl, fun hb => by simp at hb, fun _ => ?_⟩
      refine ⟨by simp [World.apply, set], by simp [World.apply, set], by simp [World.apply, set], ?_, ?_, ?_, ?_⟩
      · simp [World.apply, set]
      · simp [World.apply, set]
      · simp [World.apply, set]
      · intro v x hx
        left
        refine ⟨[], ?_, ?_⟩
        · simp [World.apply, set, live, readAll]
        · cases v with
          | zero =>
            simp at hx
            subst hx
            exact .refl _
          | succ v => simp at hx
  · rw [hkeys, List.map_append, List.nodup_append]
    refine ⟨h.names, by simp, ?_⟩
    intro a ha b hb
    simp only [List.map_cons, List.map_nil, List.mem_singleton] at hb
    subst hb
    obtain ⟨k, hk, rfl⟩ := List.mem_map.1 ha
    exact hnew k hk
  · rw [hkeys, List.map_append, List.nodup_append]
    refine ⟨h.uuids, by simp, ?_⟩
    intro a ha b hb
    simp only [List.map_cons, List.map_nil, List.mem_singleton] at hb
    subst hb
    obtain ⟨k, hk, rfl⟩ := List.mem_map.1 ha
    have := h.fresh k hk
    omega
  · intro k hk
    rw [hkeys] at hk
    rcases List.mem_append.1 hk with hk | hk
    · exact h1.fresh k hk
    · simp only [List.mem_singleton] at hk
      subst hk
      simp only [World.apply]
      omega

theorem alter_append {d : Db ρ} {n : String} (hn : d.find n = none) (f : Tab ρ → Tab ρ) (a : Tab ρ) (ha : a.name = n) :
    Db.alter (d ++ [a]) n f = d ++ [f a] := by
  have : Db.alter d n f = d := by
    have h : ∀ x ∈ d, (if x.name = n then f x else x) = x := by
      intro x hx
      rw [if_neg]
      intro he
      have := List.find?_eq_none.1 hn x hx
      simp [he] at this
    unfold Db.alter
    rw [List.map_congr_left h]
    simp
  show List.map _ (d ++ [a]) = _
  rw [List.map_append]
  show Db.alter d n f ++ _ = _
  rw [this]
  simp [ha]

theorem take_two {α : Type} (x y : α) (l : List α) (k : Nat) (hk : k < ([x, y] ++ l).length) :
    ([x, y] ++ l).take k = [] ∨ ([x, y] ++ l).take k = [x] ∨ ∃ j, j < l.length ∧ ([x, y] ++ l).take k = [x, y] ++ l.take j := by
  match k with
  | 0 => exact .inl rfl
  | 1 => exact .inr (.inl rfl)
  | k + 2 =>
    refine .inr (.inr ⟨k, ?_, rfl⟩)
    simp at hk
    omega

/-! VACUUM -/

structure Vacuumed (w w' : World ρ) (u : Nat) (fs : List Nat) : Prop where
  keys : w'.keys = w.keys
  frame : Frame w w' u
  path : w'.path = w.path
  log : ∃ ms, w'.log u = w.log u ++ ms ∧ (∀ c ∈ ms, c.adds = [] ∧ c.removes = [] ∧ w.now ≤ c.time ∧ c.time < w'.now) ∧
    (ms.map (·.time)).Pairwise (· < ·)
  kept : ∀ p, p ∉ fs → w'.files u p = w.files u p
  less : ∀ p, w'.files u p = w.files u p ∨ w'.files u p = none

theorem prune_keys (w : World ρ) (n : String) : (w.apply (.prune n)).keys = w.keys := by
  simp only [World.keys, World.apply, List.map_map]
  apply List.map_congr_left
  intro e _
  simp only [Function.comp]
  split <;> rfl

/-- The operations of a VACUUM. -/
def VacOp (u : Nat) (fs : List Nat) (n : String) (o : Op ρ) : Prop :=
  o = .commit u [] [] ∨ (∃ p ∈ fs, o = .erase u p) ∨ o = .prune n

theorem vacuumed_step {w w' : World ρ} {u : Nat} {fs : List Nat} {n : String} (h : Vacuumed w w' u fs) {o : Op ρ}
    (ho : VacOp u fs n o) : Vacuumed w (w'.apply o) u fs := by
  rcases ho with rfl | ⟨p, hp, rfl⟩ | rfl
  · obtain ⟨ms, h1, h2, h3⟩ := h.log
    refine ⟨h.keys, h.frame.trans ⟨?_, fun _ _ => rfl, Nat.le_refl _, by simp [World.apply], Nat.le_refl _⟩, h.path, ?_, h.kept, h.less⟩
    · intro x hx
      simp only [World.apply, set]
      rw [if_neg hx]
    · refine ⟨ms ++ [⟨w'.now, [], []⟩], by simp [World.apply, set, h1], ?_, ?_⟩
      · intro c hc
        rcases List.mem_append.1 hc with hc | hc
        · obtain ⟨h4, h5, h6, h7⟩ := h2 c hc
          exact ⟨h4, h5, h6, by simp only [World.apply]; omega⟩
        · simp only [List.mem_singleton] at hc
          subst hc
          exact ⟨rfl, rfl, h.frame.now, by simp [World.apply]⟩
      · rw [List.map_append, List.pairwise_append]
        refine ⟨h3, by simp, ?_⟩
        intro x hx y hy
        simp only [List.map_cons, List.map_nil, List.mem_singleton] at hy
        subst hy
        obtain ⟨c, hc, rfl⟩ := List.mem_map.1 hx
        exact (h2 c hc).2.2.2
  · refine ⟨h.keys, h.frame.trans ⟨fun _ _ => rfl, ?_, Nat.le_refl _, Nat.le_refl _, Nat.le_refl _⟩, h.path, h.log, ?_, ?_⟩
    · intro x hx
      simp only [World.apply, set]
      rw [if_neg hx]
    · intro q hq
      rw [← h.kept q hq]
      simp only [World.apply, set, if_true]
      rw [if_neg]
      rintro rfl
      exact hq hp
    · intro q
      by_cases hq : q = p
      · right
        simp [World.apply, set, hq]
      · have := h.less q
        simpa [World.apply, set, hq] using this
  · exact ⟨(prune_keys w' n).trans h.keys, ⟨h.frame.log, h.frame.files, h.frame.path, h.frame.now, h.frame.uuid⟩, h.path, h.log,
      h.kept, h.less⟩

theorem vacuumed_all {w : World ρ} {u : Nat} {fs : List Nat} {n : String} (ops : List (Op ρ)) (ho : ∀ o ∈ ops, VacOp u fs n o) :
    Vacuumed w (w.applyAll ops) u fs := by
  have key : ∀ (ops : List (Op ρ)) (w' : World ρ), Vacuumed w w' u fs → (∀ o ∈ ops, VacOp u fs n o) →
      Vacuumed w (w'.applyAll ops) u fs := by
    intro ops
    induction ops with
    | nil => intro w' h _; exact h
    | cons o ops ih =>
      intro w' h hall
      exact ih _ (vacuumed_step h (hall o List.mem_cons_self)) fun x hx => hall x (List.mem_cons_of_mem _ hx)
  refine key ops w ⟨rfl, Frame.refl w u, rfl, ⟨[], by simp, by simp, by simp⟩, fun _ _ => rfl, fun _ => .inl rfl⟩ ho

theorem live_marks (log ms : List Commit) (h : ∀ c ∈ ms, c.adds = [] ∧ c.removes = []) : live (log ++ ms) = live log := by
  induction ms generalizing log with
  | nil => simp
  | cons c ms ih =>
    have e : log ++ c :: ms = (log ++ [c]) ++ ms := by simp
    rw [e, ih _ fun x hx => h x (List.mem_cons_of_mem _ hx), live_snoc]
    obtain ⟨h1, h2⟩ := h c List.mem_cons_self
    simp [h1, h2]

theorem vacuum_sim {w w' : World ρ} {d : Db ρ} (h : Sim w d) {n : String} {u : Nat} (hm : (n, u) ∈ w.keys) (hl : w.log u ≠ [])
    (hv : Vacuumed w w' u (dead (w.log u))) {r r' : List ρ} (hr : readAll (w.files u) (live (w.log u)) = some r') (hp : r'.Perm r) :
    ∃ more : List (Nat × List ρ), (∀ x ∈ more, w.now ≤ x.1 ∧ x.1 < w'.now ∧ x.2 = r) ∧
      Sim w' (d.alter n fun a => { a with hist := a.hist ++ more, kept := a.hist.length - 1 }) := by
  obtain ⟨ms, h1, h2, h3⟩ := hv.log
  refine ⟨ms.map fun c => (c.time, r), ?_, h.alter hm hv.keys hv.frame ?_⟩
  · intro x hx
    obtain ⟨c, hc, rfl⟩ := List.mem_map.1 hx
    exact ⟨(h2 c hc).2.2.1, (h2 c hc).2.2.2, rfl⟩
  · intro a _ hk
    have hi := hk.intact hl
    have hg := hk.good hi
    simp only at hg
    have hlen := hg.len
    have hpos : 0 < (w.log u).length := List.length_pos_iff.2 hl
    refine ⟨hk.name, fun hb => absurd (hi.symm.trans hb) (by simp), fun _ => ?_⟩
    show Good (w'.log u) (w'.files u) w'.path w'.now _
    rw [h1]
    refine ⟨?_, by simp [hl], ?_, ?_, ?_, ?_, ?_⟩
    · simp [hg.times, Function.comp]
    · rw [List.map_append, List.pairwise_append]
      refine ⟨hg.mono, h3, ?_⟩
      intro x hx y hy
      obtain ⟨c, hc, rfl⟩ := List.mem_map.1 hx
      obtain ⟨c', hc', rfl⟩ := List.mem_map.1 hy
      have := hg.past c hc
      have := (h2 c' hc').2.2.1
      omega
    · intro c hc
      rcases List.mem_append.1 hc with hc | hc
      · exact Nat.lt_of_lt_of_le (hg.past c hc) hv.frame.now
      · exact (h2 c hc).2.2.2
    · intro c hc p hpc
      rcases List.mem_append.1 hc with hc | hc
      · rw [hv.path]
        exact hg.paths c hc p hpc
      · rw [(h2 c hc).1] at hpc
        simp at hpc
    · simp only [List.length_append]
      omega
    · intro v x hx
      simp only at hx ⊢
      by_cases hv1 : v < a.hist.length - 1
      · have e : (w.log u ++ ms).take (v + 1) = (w.log u).take (v + 1) := List.take_append_of_le_length (by omega)
        rw [e]
        rw [List.getElem?_append_left (by omega)] at hx
        rcases readAll_less (l := live ((w.log u).take (v + 1))) hv.less with h5 | h5
        · rw [h5]
          rcases hg.rows v x hx with h6 | ⟨-, h6⟩
          · exact .inl h6
          · exact .inr ⟨hv1, h6⟩
        · exact .inr ⟨hv1, h5⟩
      · left
        have e : live ((w.log u ++ ms).take (v + 1)) = live (w.log u) := by
          rw [List.take_append, List.take_of_length_le (by omega)]
          exact live_marks _ _ fun c hc => ⟨(h2 c (List.mem_of_mem_take hc)).1, (h2 c (List.mem_of_mem_take hc)).2.1⟩
        have e2 : readAll (w'.files u) (live (w.log u)) = some r' := by
          rw [← hr]
          apply readAll_congr
          intro p hpl
          apply hv.kept
          intro hd
          have := (List.mem_filter.1 hd).2
          simp [hpl] at this
        refine ⟨r', by rw [e, e2], ?_⟩
        rw [List.getElem?_append] at hx
        split at hx
        · next hlt =>
          rcases hg.rows v x hx with ⟨r2, h6, h7⟩ | ⟨h6, -⟩
          · rw [List.take_of_length_le (by omega), hr] at h6
            cases h6
            exact h7
          · have := hg.kept
            omega
        · rw [List.getElem?_map, Option.map_eq_some_iff] at hx
          obtain ⟨c, -, rfl⟩ := hx
          exact hp

/-! DROP TABLE -/

theorem forget_sim {w w' : World ρ} {d : Db ρ} (h : Sim w d) {n : String} {u : Nat} (hm : (n, u) ∈ w.keys) (hk : w'.keys = w.keys)
    (hF : Frame w w' u) : Sim (w'.apply (.forget n)) (d.filter fun a => a.name != n) := by
  have hkeys : (w'.apply (.forget n)).keys = w.keys.filter fun k => k.1 != n := by
    rw [← hk]
    simp only [World.keys, World.apply, List.filter_map]
    rfl
  refine ⟨?_, ?_, ?_, ?_⟩
  · rw [hkeys]
    have h1 := forall2_filter (f := fun k => k.1 != n) (g := fun a => a.name != n) h.rel fun k a hka => by rw [hka.name]
    refine forall2_imp h1 fun k hkm a ha => ?_
    obtain ⟨hk1, hk2⟩ := List.mem_filter.1 hkm
    have hne : k.2 ≠ u := by
      intro he
      have := nodup_uuid h.uuids hk1 hm he
      subst this
      simp at hk2
    exact ha.weaken (w' := w'.apply (.forget n)) (hF.log _ hne) (fun p _ => by show w'.files k.2 p = _; rw [hF.files _ hne])
      hF.path hF.now
  · rw [hkeys]
    exact h.names.sublist (List.filter_sublist.map _)
  · rw [hkeys]
    exact h.uuids.sublist (List.filter_sublist.map _)
  · intro k hkm
    rw [hkeys] at hkm
    exact Nat.lt_of_lt_of_le (h.fresh k (List.mem_filter.1 hkm).1) hF.uuid

/-- The deletion of the directory `u`. -/
def Removal (u : Nat) (o : Op ρ) : Prop := o = .eraseLog u ∨ ∃ p, o = .erase u p

theorem removal_spec {u : Nat} (ops : List (Op ρ)) (ho : ∀ o ∈ ops, Removal u o) : ∀ w : World ρ,
    (w.applyAll ops).keys = w.keys ∧ Frame w (w.applyAll ops) u ∧ (w.applyAll ops).now = w.now ∧
      (w.log u = [] → (w.applyAll ops).log u = []) := by
  induction ops with
  | nil => intro w; exact ⟨rfl, Frame.refl w u, rfl, fun h => h⟩
  | cons o ops ih =>
    intro w
    obtain ⟨h1, h2, h3, h4⟩ := ih (fun x hx => ho x (List.mem_cons_of_mem _ hx)) (w.apply o)
    have e : (w.applyAll (o :: ops)) = (w.apply o).applyAll ops := rfl
    rw [e]
    rcases ho o List.mem_cons_self with rfl | ⟨p, rfl⟩
    · refine ⟨h1, Frame.trans (w' := w.apply (.eraseLog u)) ⟨?_, fun _ _ => rfl, Nat.le_refl _, Nat.le_refl _, Nat.le_refl _⟩ h2,
        h3, fun _ => h4 (by simp [World.apply, set])⟩
      intro x hx
      simp only [World.apply, set]
      rw [if_neg hx]
    · refine ⟨h1, Frame.trans (w' := w.apply (.erase u p)) ⟨fun _ _ => rfl, ?_, Nat.le_refl _, Nat.le_refl _, Nat.le_refl _⟩ h2,
        h3, h4⟩
      intro x hx
      simp only [World.apply, set]
      rw [if_neg hx]

theorem removed_sim {w w' : World ρ} {d : Db ρ} (h : Sim w d) {n : String} {u : Nat} (hm : (n, u) ∈ w.keys) (hk : w'.keys = w.keys)
    (hF : Frame w w' u) (hl : w'.log u = []) : Sim w' (d.alter n fun a => { a with intact := false }) := by
  refine h.alter hm hk hF fun a _ ha => ⟨ha.name, fun _ => hl, fun hi => by simp at hi⟩

/-! RENAME -/

theorem rename_sim {w : World ρ} {d : Db ρ} (h : Sim w d) {n m : String} (hn : w.find m = none) :
    Sim (w.apply (.rename n m)) (d.alter n fun a => { a with name := m }) := by
  have hkeys : (w.apply (.rename n m)).keys = w.keys.map fun k => if k.1 = n then (m, k.2) else k := by
    simp only [World.keys, World.apply, List.map_map]
    apply List.map_congr_left
    intro e _
    simp only [Function.comp, beq_iff_eq]
    split <;> rfl
  have hnew : ∀ k ∈ w.keys, k.1 ≠ m := by
    intro k hk he
    have := find_key w m
    rw [hn, Option.map_none, eq_comm, List.find?_eq_none] at this
    exact this k hk (by simp [he])
  refine ⟨?_, ?_, ?_, ?_⟩
  · rw [hkeys]
    refine forall2_map h.rel fun k _ a ha => ?_
    rw [ha.name]
    split
    · exact ⟨rfl, ha.broken, fun hi => ⟨(ha.good hi).times, (ha.good hi).ne, (ha.good hi).mono, (ha.good hi).past,
        (ha.good hi).paths, (ha.good hi).kept, (ha.good hi).rows⟩⟩
    · exact ⟨ha.name, ha.broken, ha.good⟩
  · rw [hkeys, List.map_map]
    have key : ∀ l : List (String × Nat), (l.map (·.1)).Nodup → (∀ k ∈ l, k.1 ≠ m) →
        (l.map ((fun k => k.1) ∘ fun k => if k.1 = n then (m, k.2) else k)).Nodup := by
      intro l hl hne
      have e : l.map ((fun k => k.1) ∘ fun k => if k.1 = n then (m, k.2) else k) =
          (l.map (·.1)).map fun x => if x = n then m else x := by
        rw [List.map_map]
        apply List.map_congr_left
        intro k _
        simp only [Function.comp]
        split <;> rfl
      rw [e]
      refine List.Nodup.map_on ?_ hl
      intro x hx y hy hxy
      obtain ⟨k, hk, rfl⟩ := List.mem_map.1 hx
      obtain ⟨k', hk', rfl⟩ := List.mem_map.1 hy
      split at hxy <;> split at hxy
      · next h1 h2 => rw [h1, h2]
      · exact absurd hxy.symm (hne k' hk')
      · exact absurd hxy (hne k hk)
      · exact hxy
    exact key _ h.names hnew
  · rw [hkeys, List.map_map]
    have e : w.keys.map ((fun k => k.2) ∘ fun k => if k.1 = n then (m, k.2) else k) = w.keys.map (·.2) := by
      apply List.map_congr_left
      intro k _
      simp only [Function.comp]
      split <;> rfl
    rw [e]
    exact h.uuids
  · intro k hk
    rw [hkeys] at hk
    obtain ⟨k', hk', rfl⟩ := List.mem_map.1 hk
    have := h.fresh k' hk'
    show _ < w.uuid
    split
    · exact this
    · exact this

/-! ### every statement -/

/-- The outcome of a statement is one the database allows. -/
def Fits (w : World ρ) (d : Db ρ) (s : Stmt ρ) (f : Fault) (r : World ρ × Res ρ) : Prop :=
  ∃ d', Step d w.now s (f != .none) r.2 d' r.1.now ∧ Sim r.1 d'

theorem Sim.usable {w : World ρ} {d : Db ρ} (h : Sim w d) {n : String} {e : Entry} (hl : w.look n = some e) : d.Usable n := by
  obtain ⟨a, -, hd, hi, -⟩ := h.look_some hl
  exact ⟨a, hd, hi⟩

theorem Sim.now {w : World ρ} {d : Db ρ} {n : String} {e : Entry} (h : Sim w d) (hl : w.look n = some e) :
    ∃ r r', d.current n r ∧ readAll (w.files e.uuid) (live (w.log e.uuid)) = some r' ∧ r'.Perm r ∧
      (n, e.uuid) ∈ w.keys ∧ w.log e.uuid ≠ [] ∧ ∀ p ∈ live (w.log e.uuid), p < w.path := by
  obtain ⟨a, -, hd, hi, hm, -, -, hg⟩ := h.look_some hl
  obtain ⟨τ, r, r', h1, h2, h3⟩ := hg.current
  exact ⟨r, r', ⟨a, τ, hd, hi, h1⟩, h2, h3, hm, hg.ne, live_lt hg⟩

theorem fits_refuse {w : World ρ} {d : Db ρ} {s : Stmt ρ} (f : Fault) (h : Sim w d) (hr : Refusable d s) :
    Fits w d s f (w.carry Plan.refuse f) := by
  rw [carry_refuse]
  exact ⟨d, .refused hr (Nat.le_refl _), h⟩

/-- A statement that stores rows as a new version. -/
theorem fits_store {w : World ρ} {d : Db ρ} {s : Stmt ρ} (f : Fault) (h : Sim w d) {n : String} {u : Nat} (hm : (n, u) ∈ w.keys)
    (hl : w.log u ≠ []) {cs : List (List ρ)} {removes : List Nat} {r r1 : List ρ}
    (hr : readAll (w.files u) ((live (w.log u)).filter fun p => !removes.contains p) = some r1)
    (hlive : ∀ p ∈ live (w.log u), p < w.path) (hp : (r1 ++ cs.flatten).Perm r)
    (he : Effect d w.now (w.now + 1) s (d.alter n (·.push w.now r))) :
    Fits w d s f (w.carry ⟨[], puts u w.path cs ++ [.commit u (names w.path cs) removes, .record u], .ok⟩ f) := by
  obtain ⟨⟨h1, h2⟩, h3⟩ := store_sim h hm hl hr hlive hp
  rcases carry_hard w (puts u w.path cs ++ [.commit u (names w.path cs) removes, .record u]) .ok f with e | ⟨hb, k, hk, e⟩
  · rw [e]
    refine ⟨_, .ok ?_, h1⟩
    rw [h2]
    exact he
  · rw [e]
    rcases h3 k hk with ⟨h4, h5⟩ | ⟨h4, h5⟩
    · exact ⟨d, .nothing hb (Nat.le_of_eq h5.symm), h4⟩
    · refine ⟨_, .late hb ?_, h4⟩
      rw [h5]
      exact he

theorem fits_create {w : World ρ} {d : Db ρ} (E : Env ρ) (f : Fault) (h : Sim w d) (n : String) :
    Fits w d (.create n) f (w.carry (w.plan E (.create n)) f) := by
  have h1 := mk_sim h
  have hn1 : (w.apply (.mk w.uuid)).now = w.now + 1 := rfl
  rcases h.find n with ⟨hf, hd⟩ | ⟨e, a, hf, hd, -⟩
  · simp only [World.plan, hf]
    rcases carry_hard w [.mk w.uuid, .enter n w.uuid] .ok f with e | ⟨hb, k, hk, e⟩
    · rw [e]
      exact ⟨_, .ok (.create hd (Nat.le_refl _) (by show w.now < w.now + 1; omega)), enter_sim h hf⟩
    · rw [e]
      match k, hk with
      | 0, _ => exact ⟨d, .nothing hb (Nat.le_refl _), h⟩
      | 1, _ => exact ⟨d, .nothing hb (by show w.now ≤ w.now + 1; omega), h1⟩
  · simp only [World.plan, hf]
    rcases carry_hard w [.mk w.uuid] .refused f with e | ⟨hb, k, hk, e⟩
    · rw [e]
      exact ⟨d, .refused (by simp [Refusable, hd]) (by show w.now ≤ w.now + 1; omega), h1⟩
    · rw [e]
      match k, hk with
      | 0, _ => exact ⟨d, .nothing hb (Nat.le_refl _), h⟩

theorem fits_createAs {w : World ρ} {d : Db ρ} {E : Env ρ} (hE : E.Sound) (f : Fault) (h : Sim w d) (n : String) (q : Query ρ) :
    Fits w d (.createAs n q) f (w.carry (w.plan E (.createAs n q)) f) := by
  have h1 := mk_sim h
  have hq := h.query q
  cases hr : w.query q with
  | none =>
    rw [hr] at hq
    simp only [World.plan, hr]
    exact fits_refuse f h (.inr hq)
  | some rows =>
    rw [hr] at hq
    rcases h.find n with ⟨hf, hd⟩ | ⟨e, a, hf, hd, -⟩
    · simp only [World.plan, hr, hf, store]
      have h2 := enter_sim h hf
      have hm : (n, w.uuid) ∈ ((w.apply (.mk w.uuid)).apply (.enter n w.uuid)).keys := by simp [World.keys, World.apply]
      have hlog : ((w.apply (.mk w.uuid)).apply (.enter n w.uuid)).log w.uuid = [⟨w.now, [], []⟩] := by simp [World.apply, set]
      have hlive : live [(⟨w.now, [], []⟩ : Commit)] = [] := by simp [live]
      obtain ⟨⟨h3, h4⟩, h5⟩ := store_sim (cs := E.cut rows) (removes := []) (r := rows) (r1 := []) h2 hm (by simp [hlog])
        (by rw [hlog, hlive]; rfl) (by rw [hlog, hlive]; simp) (by rw [hE.cut]; exact .refl _)
      have hnow : ((w.apply (.mk w.uuid)).apply (.enter n w.uuid)).now = w.now + 1 := rfl
      have hpath : ((w.apply (.mk w.uuid)).apply (.enter n w.uuid)).path = w.path := rfl
      rw [alter_append hd _ _ rfl] at h3 h5
      rw [hpath] at h3 h4 h5
      rw [hnow] at h3 h4 h5
      have heff : Effect d w.now (w.now + 1 + 1) (.createAs n q) (d ++ [⟨n, [(w.now, []), (w.now + 1, rows)], 0, true⟩]) :=
        .createAs hd hq (Nat.le_refl _) (by omega) (by omega)
      rcases carry_hard w ([.mk w.uuid, .enter n w.uuid] ++
        (puts w.uuid w.path (E.cut rows) ++ [.commit w.uuid (names w.path (E.cut rows)) [], .record w.uuid])) .ok f
        with e | ⟨hb, k, hk, e⟩
      · rw [e, applyAll_append]
        refine ⟨_, .ok ?_, h3⟩
        have h4' : (World.applyAll (World.applyAll w [.mk w.uuid, .enter n w.uuid])
          (puts w.uuid w.path (E.cut rows) ++ [.commit w.uuid (names w.path (E.cut rows)) [], .record w.uuid])).now =
            w.now + 1 + 1 := h4
        rw [h4']
        exact heff
      · rw [e]
        rcases take_two _ _ _ k hk with e2 | e2 | ⟨j, hj, e2⟩
        · rw [e2]
          exact ⟨d, .nothing hb (Nat.le_refl _), h⟩
        · rw [e2]
          exact ⟨d, .nothing hb (by show w.now ≤ w.now + 1; omega), h1⟩
        · rw [e2, applyAll_append]
          rcases h5 j hj with ⟨h6, h7⟩ | ⟨h6, h7⟩
          · refine ⟨_, .half hb ?_, h6⟩
            refine .createAs hd (Nat.le_refl _) ?_
            have h7' : (World.applyAll (World.applyAll w [.mk w.uuid, .enter n w.uuid])
              ((puts w.uuid w.path (E.cut rows) ++ [Op.commit w.uuid (names w.path (E.cut rows)) [], Op.record w.uuid]).take j)).now =
                w.now + 1 := h7
            rw [h7']
            omega
          · refine ⟨_, .late hb ?_, h6⟩
            have h7' : (World.applyAll (World.applyAll w [.mk w.uuid, .enter n w.uuid])
              ((puts w.uuid w.path (E.cut rows) ++ [Op.commit w.uuid (names w.path (E.cut rows)) [], Op.record w.uuid]).take j)).now =
                w.now + 1 + 1 := h7
            rw [h7']
            exact heff
    · simp only [World.plan, hr, hf]
      rcases carry_hard w [.mk w.uuid] .refused f with e | ⟨hb, k, hk, e⟩
      · rw [e]
        exact ⟨d, .refused (.inl (by simp [hd])) (by show w.now ≤ w.now + 1; omega), h1⟩
      · rw [e]
        match k, hk with
        | 0, _ => exact ⟨d, .nothing hb (Nat.le_refl _), h⟩

theorem fits_insert {w : World ρ} {d : Db ρ} {E : Env ρ} (hE : E.Sound) (f : Fault) (h : Sim w d) (n : String) (q : Query ρ) :
    Fits w d (.insert n q) f (w.carry (w.plan E (.insert n q)) f) := by
  have hq := h.query q
  cases hr : w.query q with
  | none =>
    rw [hr] at hq
    simp only [World.plan, hr]
    exact fits_refuse f h (.inr hq)
  | some rows =>
    rw [hr] at hq
    cases hl : w.look n with
    | none =>
      simp only [World.plan, hr, hl]
      exact fits_refuse f h (.inl (h.look_none hl))
    | some e =>
      simp only [World.plan, hr, hl, store]
      obtain ⟨r, r', h1, h2, h3, h4, h5, h6⟩ := h.now hl
      refine fits_store (r := r ++ rows) (r1 := r') f h h4 h5 ?_ h6 ?_ (.insert h1 hq (Nat.le_refl _) (by omega))
      · simpa using h2
      · rw [hE.cut]
        exact h3.append_right _

theorem filterMap_change {p : ρ → Bool} {g : ρ → Option ρ} {l : List ρ} (h : ∀ x ∈ l, p x = false) :
    l.filterMap (change p g) = l := by
  induction l with
  | nil => rfl
  | cons x l ih =>
    rw [List.filterMap_cons]
    simp only [change, h x List.mem_cons_self]
    simpa [change] using ih fun y hy => h y (List.mem_cons_of_mem _ hy)

theorem fits_modify {w : World ρ} {d : Db ρ} {E : Env ρ} (hE : E.Sound) (f : Fault) (h : Sim w d) (n : String) (p : ρ → Bool)
    (g : ρ → Option ρ) : Fits w d (.modify n p g) f (w.carry (w.plan E (.modify n p g)) f) := by
  cases hl : w.look n with
  | none =>
    simp only [World.plan, hl]
    exact fits_refuse f h (h.look_none hl)
  | some e =>
    obtain ⟨r, r', h1, h2, h3, h4, h5, h6⟩ := h.now hl
    obtain ⟨r1, r2, h7, h8, h9⟩ := readAll_split (fun x => E.keep p ((w.files e.uuid x).getD [])) h2
    have h7' : readAll (w.files e.uuid) (touched E (w.files e.uuid) p (live (w.log e.uuid))) = some r1 := h7
    have hrest : (live (w.log e.uuid)).filter (fun x => !(touched E (w.files e.uuid) p (live (w.log e.uuid))).contains x) =
        (live (w.log e.uuid)).filter fun x => !E.keep p ((w.files e.uuid x).getD []) := by
      apply List.filter_congr
      intro x hx
      have : (touched E (w.files e.uuid) p (live (w.log e.uuid))).contains x = E.keep p ((w.files e.uuid x).getD []) := by
        rw [Bool.eq_iff_iff, List.contains_iff_mem, touched, List.mem_filter]
        simp [hx]
      rw [this]
    have hkeep : ∀ x ∈ r2, p x = false := by
      intro x hx
      obtain ⟨q, hq, rows, hrows, hxr⟩ := readAll_mem h8 hx
      have hk := (List.mem_filter.1 hq).2
      rw [hrows] at hk
      exact hE.keep p rows (by simpa using hk) x hxr
    have hperm : (r2 ++ (E.cut (r1.filterMap (change p g))).flatten).Perm (r.filterMap fun x => if p x then g x else some x) := by
      rw [hE.cut]
      have e1 : (r.filterMap fun x => if p x then g x else some x) = r.filterMap (change p g) := rfl
      rw [e1]
      have e2 := ((h3.symm.trans h9).filterMap (change p g))
      rw [List.filterMap_append, filterMap_change hkeep] at e2
      exact (List.perm_append_comm.trans e2.symm)
    have heff : Effect d w.now (w.now + 1) (.modify n p g)
        (d.alter n (·.push w.now (r.filterMap fun x => if p x then g x else some x))) :=
      .modify h1 (Nat.le_refl _) (by omega)
    simp only [World.plan, hl, h7']
    split
    · next hempty =>
      have hnil : touched E (w.files e.uuid) p (live (w.log e.uuid)) = [] := List.isEmpty_iff.1 hempty
      rw [hnil] at h7' hrest
      have hr1 : r1 = [] := by
        simp [readAll] at h7'
        exact h7'
      have := fits_store (cs := []) (removes := []) (r1 := r2) f h h4 h5 (by rw [hrest]; exact h8) h6 (by
        rw [hr1] at hperm
        rw [hE.cut] at hperm
        simpa using hperm) heff
      exact this
    · exact fits_store f h h4 h5 (by rw [hrest]; exact h8) h6 hperm heff

theorem fits_truncate {w : World ρ} {d : Db ρ} (E : Env ρ) (f : Fault) (h : Sim w d) (n : String) :
    Fits w d (.truncate n) f (w.carry (w.plan E (.truncate n)) f) := by
  cases hl : w.look n with
  | none =>
    simp only [World.plan, hl]
    exact fits_refuse f h (h.look_none hl)
  | some e =>
    obtain ⟨r, r', h1, h2, h3, h4, h5, h6⟩ := h.now hl
    simp only [World.plan, hl]
    rcases carry_hard w [.commit e.uuid [] (live (w.log e.uuid))] .ok f with e' | ⟨hb, k, hk, e'⟩
    · rw [e']
      refine ⟨_, .ok (.truncate (h.usable hl) (Nat.le_refl _) (by show w.now < w.now + 1; omega)), ?_⟩
      refine commit_sim (r' := []) h h4 h5 (by simp) ?_ (.refl _)
      rw [live_snoc]
      have : (live (w.log e.uuid)).filter (fun p => !(live (w.log e.uuid)).contains p) = [] := by
        rw [List.filter_eq_nil_iff]
        intro p hp
        simp [hp]
      simp only [this]
      rfl
    · rw [e']
      match k, hk with
      | 0, _ => exact ⟨d, .nothing hb (Nat.le_refl _), h⟩

theorem fits_vacuum {w : World ρ} {d : Db ρ} (E : Env ρ) (f : Fault) (h : Sim w d) (n : String) :
    Fits w d (.vacuum n) f (w.carry (w.plan E (.vacuum n)) f) := by
  cases hl : w.look n with
  | none =>
    simp only [World.plan, hl]
    exact fits_refuse f h (h.look_none hl)
  | some e =>
    obtain ⟨r, r', h1, h2, h3, h4, h5, h6⟩ := h.now hl
    simp only [World.plan, hl]
    generalize hops : (if E.mark && !(dead (w.log e.uuid)).isEmpty then [Op.commit e.uuid [] []] else []) ++
      (dead (w.log e.uuid)).map (Op.erase (ρ := ρ) e.uuid ·) ++
      (if E.mark && !(dead (w.log e.uuid)).isEmpty then [Op.commit e.uuid [] []] else []) ++ [Op.prune n] = ops
    have hall : ∀ o ∈ ops, VacOp e.uuid (dead (w.log e.uuid)) n o := by
      have hm : ∀ o ∈ (if E.mark && !(dead (w.log e.uuid)).isEmpty then [Op.commit (ρ := ρ) e.uuid [] []] else []),
          o = .commit e.uuid [] [] := by
        intro o ho
        split at ho
        · simpa using ho
        · simp at ho
      intro o ho
      rw [← hops] at ho
      rcases List.mem_append.1 ho with ho | ho
      · rcases List.mem_append.1 ho with ho | ho
        · rcases List.mem_append.1 ho with ho | ho
          · exact .inl (hm o ho)
          · obtain ⟨p, hp, rfl⟩ := List.mem_map.1 ho
            exact .inr (.inl ⟨p, hp, rfl⟩)
        · exact .inl (hm o ho)
      · simp only [List.mem_singleton] at ho
        exact .inr (.inr ho)
    rcases carry_hard w ops .ok f with e' | ⟨hb, k, hk, e'⟩
    · rw [e']
      have hv := vacuumed_all (w := w) ops hall
      obtain ⟨more, hmore, hsim⟩ := vacuum_sim h h4 h5 hv h2 h3
      exact ⟨_, .ok (.vacuum h1 hv.frame.now hmore), hsim⟩
    · rw [e']
      have hv := vacuumed_all (w := w) (ops.take k) fun o ho => hall o (List.mem_of_mem_take ho)
      obtain ⟨more, hmore, hsim⟩ := vacuum_sim h h4 h5 hv h2 h3
      exact ⟨_, .late hb (.vacuum h1 hv.frame.now hmore), hsim⟩

theorem fits_drop {w : World ρ} {d : Db ρ} (E : Env ρ) (f : Fault) (h : Sim w d) (n : String) :
    Fits w d (.drop n) f (w.carry (w.plan E (.drop n)) f) := by
  rcases h.find n with ⟨hf, hd⟩ | ⟨e, a, hf, hd, hn, hm, -⟩
  · simp only [World.plan, hf]
    exact fits_refuse f h hd
  · simp only [World.plan, hf]
    rw [hn] at hm
    have hd' : d.find n ≠ none := by simp [hd]
    generalize hsoft : (List.range w.path).map (Op.erase (ρ := ρ) e.uuid ·) = era
    have hall : ∀ o ∈ Op.eraseLog e.uuid :: era, Removal e.uuid o := by
      intro o ho
      rcases List.mem_cons.1 ho with rfl | ho
      · exact .inl rfl
      · rw [← hsoft] at ho
        obtain ⟨p, -, rfl⟩ := List.mem_map.1 ho
        exact .inr ⟨p, rfl⟩
    -- the entry is deleted, whatever is left of the directory
    have full : ∀ k, ∃ d', Effect d w.now (w.applyAll ((Op.eraseLog e.uuid :: era).take k ++ [.forget n])).now (.drop n) d' ∧
        Sim (w.applyAll ((Op.eraseLog e.uuid :: era).take k ++ [.forget n])) d' := by
      intro k
      obtain ⟨h1, h2, h3, -⟩ := removal_spec ((Op.eraseLog e.uuid :: era).take k) (fun o ho => hall o (List.mem_of_mem_take ho)) w
      rw [applyAll_append]
      refine ⟨_, .drop hd' ?_, forget_sim h hm h1 h2⟩
      show w.now ≤ (w.applyAll ((Op.eraseLog e.uuid :: era).take k)).now
      omega
    -- the server stops before that
    have part : ∀ k, k ≤ (Op.eraseLog e.uuid :: era).length → ∀ hb : (f != .none) = true,
        Fits w d (.drop n) f (w.applyAll ((Op.eraseLog e.uuid :: era).take k), .failed) := by
      intro k _ hb
      cases k with
      | zero => exact ⟨d, .nothing hb (Nat.le_refl _), h⟩
      | succ k =>
        obtain ⟨h1, h2, h3, -⟩ := removal_spec ((Op.eraseLog e.uuid :: era).take (k + 1))
          (fun o ho => hall o (List.mem_of_mem_take ho)) w
        obtain ⟨-, -, -, h4⟩ := removal_spec (era.take k)
          (fun o ho => hall o (List.mem_cons_of_mem _ (List.mem_of_mem_take ho))) (w.apply (.eraseLog e.uuid))
        have h5 := h4 (by simp [World.apply, set])
        refine ⟨_, .half hb (.drop hd' (Nat.le_of_eq h3.symm)), removed_sim h hm h1 h2 h5⟩
    have all : ∃ d', Effect d w.now (w.applyAll (Op.eraseLog e.uuid :: era ++ [.forget n])).now (.drop n) d' ∧
        Sim (w.applyAll (Op.eraseLog e.uuid :: era ++ [.forget n])) d' := by
      have := full (Op.eraseLog e.uuid :: era).length
      rw [List.take_length] at this
      exact this
    have cut : ∀ k, k < (Op.eraseLog e.uuid :: era ++ [Op.forget n]).length →
        (Op.eraseLog e.uuid :: era ++ [Op.forget n]).take k = (Op.eraseLog e.uuid :: era).take k ∧
          k ≤ (Op.eraseLog (ρ := ρ) e.uuid :: era).length := by
      intro k hk
      rw [List.length_append, List.length_singleton] at hk
      have hle : k ≤ (Op.eraseLog (ρ := ρ) e.uuid :: era).length := by omega
      exact ⟨List.take_append_of_le_length hle, hle⟩
    cases f with
    | none =>
      obtain ⟨d', h1, h2⟩ := all
      exact ⟨d', .ok h1, h2⟩
    | error k =>
      simp only [World.carry]
      split
      · obtain ⟨d', h1, h2⟩ := full k
        exact ⟨d', .ok h1, h2⟩
      · split
        · next hk =>
          obtain ⟨e1, e2⟩ := cut k hk
          rw [e1]
          exact part k e2 rfl
        · obtain ⟨d', h1, h2⟩ := all
          exact ⟨d', .ok h1, h2⟩
    | crash k =>
      simp only [World.carry]
      split
      · next hk =>
        obtain ⟨e1, e2⟩ := cut k hk
        rw [e1]
        exact part k e2 rfl
      · obtain ⟨d', h1, h2⟩ := all
        exact ⟨d', .ok h1, h2⟩

theorem fits_rename {w : World ρ} {d : Db ρ} (E : Env ρ) (f : Fault) (h : Sim w d) (n m : String) :
    Fits w d (.rename n m) f (w.carry (w.plan E (.rename n m)) f) := by
  cases hl : w.look n with
  | none =>
    simp only [World.plan, hl]
    exact fits_refuse f h (.inl (h.look_none hl))
  | some e =>
    rcases h.find m with ⟨hf, hd⟩ | ⟨e', a, hf, hd, -⟩
    · simp only [World.plan, hl, hf]
      rcases carry_hard w [.rename n m] .ok f with e' | ⟨hb, k, hk, e'⟩
      · rw [e']
        exact ⟨_, .ok (.rename (h.usable hl) hd (Nat.le_refl _)), rename_sim h hf⟩
      · rw [e']
        match k, hk with
        | 0, _ => exact ⟨d, .nothing hb (Nat.le_refl _), h⟩
    · simp only [World.plan, hl, hf]
      exact fits_refuse f h (.inr (by simp [hd]))

theorem exec_fits {w : World ρ} {d : Db ρ} {E : Env ρ} (hE : E.Sound) (h : Sim w d) (s : Stmt ρ) (f : Fault) :
    Fits w d s f (w.exec E s f) := by
  cases s with
  | create n => exact fits_create E f h n
  | createAs n q => exact fits_createAs hE f h n q
  | insert n q => exact fits_insert hE f h n q
  | modify n p g => exact fits_modify hE f h n p g
  | truncate n => exact fits_truncate E f h n
  | vacuum n => exact fits_vacuum E f h n
  | drop n => exact fits_drop E f h n
  | rename n m => exact fits_rename E f h n m
  | select q =>
    have hq := h.query q
    simp only [World.exec, World.plan]
    cases hr : w.query q with
    | none =>
      rw [hr] at hq
      exact fits_refuse f h hq
    | some r =>
      rw [hr] at hq
      have : w.carry ⟨[], [], .rows r⟩ f = (w, .rows r) := by
        cases f <;> simp [World.carry, World.applyAll]
      rw [this]
      exact ⟨d, .rows rfl hq, h⟩
  | wait k =>
    refine ⟨d, .ok (.wait rfl), ?_⟩
    exact h.same (w' := { w with now := w.now + k }) rfl (fun _ _ => rfl) (fun _ _ _ _ => rfl) (Nat.le_refl _)
      (Nat.le_add_right _ _) (Nat.le_refl _)

theorem run_fits {E : Env ρ} (hE : E.Sound) (sts : List (Stmt ρ × Fault)) : ∀ {w : World ρ} {d : Db ρ}, Sim w d →
    ∃ d', Steps d w.now sts (w.run E sts).2 d' (w.run E sts).1.now ∧ Sim (w.run E sts).1 d' := by
  induction sts with
  | nil => intro w d h; exact ⟨d, .nil, h⟩
  | cons x sts ih =>
    intro w d h
    obtain ⟨s, f⟩ := x
    obtain ⟨d1, h1, h2⟩ := exec_fits hE h s f
    obtain ⟨d2, h3, h4⟩ := ih h2
    exact ⟨d2, .cons h1 h3, h4⟩

theorem sim_empty : Sim (World.empty : World ρ) [] :=
  ⟨.nil, .nil, .nil, by simp [World.keys, World.empty]⟩

end Seafowl.Database
