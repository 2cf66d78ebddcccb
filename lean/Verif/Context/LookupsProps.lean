import Verif.Context.Lookups

/-!
C129: a table that the catalog lists can be read, whatever statements run at the same time.
-/
namespace Seafowl.Lookups

/-! ### specification -/

/-- The table can be read: it has a log, and every file the log names is in its directory. -/
def Readable (w : World) (t : Table) : Prop := ∃ l, w.log t = some l ∧ ∀ p ∈ l.live, p ∈ w.dir t

/-- Some DROP TABLE of the name has passed the deletion of files and not deleted an entry yet. -/
def Dropping (w : World) (n : String) : Prop := ∃ th ∈ w.threads, th.stmt = .drop n ∧ th.stage = .erased

/-- A metastore and object store as they should be: names and directories are unique, every listed table has a log, the
files of every log exist, the next UUID is new and so are the file names of the statements to come. -/
structure Sound (w : World) : Prop where
  names : (w.catalog.map (·.1)).Nodup
  tables : (w.catalog.map (·.2)).Nodup
  listed : ∀ e ∈ w.catalog, w.log e.2 ≠ none ∧ e.2 < w.next
  files : ∀ t l, w.log t = some l → (∀ p ∈ l.live, p ∈ w.dir t) ∧ ∀ p ∈ l.live, p ∉ l.dead
  new : ∀ t l, w.log t = some l → ∀ i k, (some i, k) ∉ l.live ∧ (some i, k) ∉ l.dead
  sessions : ∀ s, w.session s = []

/-- No other statement runs in the session of statement `i`. -/
def Own (ss : List (Stmt × Nat)) (i : Nat) : Prop :=
  ∀ (j : Nat) (a b : Stmt × Nat), ss[i]? = some a → ss[j]? = some b → j ≠ i → b.2 ≠ a.2

def Renamed (ss : List (Stmt × Nat)) (n : String) : Prop := ∃ m s, (Stmt.rename n m, s) ∈ ss
def Dropped (ss : List (Stmt × Nat)) (n : String) : Prop := ∃ s, (Stmt.drop n, s) ∈ ss

/-! ### lists -/

theorem find_mem {c : Names} {n : String} {t : Table} (h : c.find n = some t) : (n, t) ∈ c := by
  unfold Names.find at h
  rw [Option.map_eq_some_iff] at h
  obtain ⟨e, he, rfl⟩ := h
  have h1 := List.find?_some he
  have h2 := List.mem_of_find?_eq_some he
  have h3 : e.1 = n := by simpa using h1
  rw [← h3]
  exact h2

theorem find_none {c : Names} {n : String} (h : c.find n = none) (t : Table) : (n, t) ∉ c := by
  unfold Names.find at h
  rw [Option.map_eq_none_iff, List.find?_eq_none] at h
  intro hm
  exact h _ hm (by simp)

theorem eq_of_names {c : Names} (h : (c.map (·.1)).Nodup) {n : String} {t u : Table} (h1 : (n, t) ∈ c)
    (h2 : (n, u) ∈ c) : t = u := by
  induction c with
  | nil => simp at h1
  | cons e c ih =>
    simp only [List.map_cons, List.nodup_cons, List.mem_map, not_exists, not_and] at h
    rcases List.mem_cons.1 h1 with a | a <;> rcases List.mem_cons.1 h2 with b | b
    · exact (Prod.ext_iff.1 (a.trans b.symm)).2
    · exact absurd (by rw [← a]) (h.1 _ b)
    · exact absurd (by rw [← b]) (h.1 _ a)
    · exact ih h.2 a b

theorem eq_of_tables {c : Names} (h : (c.map (·.2)).Nodup) {n m : String} {t : Table} (h1 : (n, t) ∈ c)
    (h2 : (m, t) ∈ c) : n = m := by
  induction c with
  | nil => simp at h1
  | cons e c ih =>
    simp only [List.map_cons, List.nodup_cons, List.mem_map, not_exists, not_and] at h
    rcases List.mem_cons.1 h1 with a | a <;> rcases List.mem_cons.1 h2 with b | b
    · exact (Prod.ext_iff.1 (a.trans b.symm)).1
    · exact absurd (by rw [← a]) (h.1 _ b)
    · exact absurd (by rw [← b]) (h.1 _ a)
    · exact ih h.2 a b

theorem files_owner {i k : Nat} {p : Path} (h : p ∈ files i k) : p.1 = some i := by
  unfold files at h
  obtain ⟨x, _, rfl⟩ := List.mem_map.1 h
  rfl

/-! ### the invariant -/

/-- The name a statement acts on. -/
def Stmt.name : Stmt → String
  | .insert n _ | .modify _ n _ _ | .truncate n | .vacuum n | .drop n | .rename n _ | .create n => n

/-- The pairs of name and table a statement has seen. -/
def Thread.knows (th : Thread) : Names :=
  match th.stage with
  | .listed c => c
  | .found t _ => [(th.stmt.name, t)]
  | .named u => [(th.stmt.name, u)]
  | _ => []

/-- What is true of a pair of name and table that was once in the metastore. -/
structure Seen (R D : String → Prop) (w : World) (e : String × Table) : Prop where
  lt : e.2 < w.next
  /-- if the name is never given up, the table still has it unless it is gone -/
  kept : ¬ R e.1 → ∀ m, (m, e.2) ∈ w.catalog → m = e.1
  stay : ¬ R e.1 → ¬ D e.1 → e ∈ w.catalog

/-- What is true of statement `i` between its steps. -/
structure Fine (R D : String → Prop) (own : Nat → Prop) (w : World) (i : Nat) (th : Thread) : Prop where
  seen : ∀ e ∈ th.knows, Seen R D w e
  clean : (∀ b, th.stage ≠ .finished b) → ∀ t l, w.log t = some l → ∀ k, (some i, k) ∉ l.live ∧ (some i, k) ∉ l.dead
  found : ∀ t l, th.stage = .found t l → ∀ l', w.log t = some l' → ∀ p ∈ l.dead, p ∈ l'.dead
  both : ∀ t l u, th.stage = .both t l u → t = u ∧ t < w.next
  wrote : ∀ t r a, th.stage = .wrote t r a →
    t < w.next ∧ (∀ p ∈ a, p.1 = some i) ∧ ∀ l, w.log t = some l → ∀ p ∈ a, p ∈ w.dir t
  same : own i → ∀ b n q k, th.stmt = .modify b n q k → ∀ t, (th.stage = .named t ∨ ∃ l, th.stage = .found t l) →
    (w.session th.session).find n = some t
  made : ∀ u, th.stage = .made u → u < w.next ∧ w.log u ≠ none ∧ (∀ e ∈ w.catalog, e.2 ≠ u) ∧
    ∀ s, ∀ e ∈ w.session s, e.2 ≠ u

structure Inv (R D : String → Prop) (own : Nat → Prop) (w : World) : Prop where
  names : (w.catalog.map (·.1)).Nodup
  tables : (w.catalog.map (·.2)).Nodup
  lt : ∀ e ∈ w.catalog, e.2 < w.next
  sess : ∀ s, ∀ e ∈ w.session s, Seen R D w e
  files : ∀ t l, w.log t = some l → (∀ p ∈ l.live, p ∈ w.dir t) ∧ ∀ p ∈ l.live, p ∉ l.dead
  fine : ∀ i th, w.threads[i]? = some th → Fine R D own w i th
  made : ∀ (i j : Nat) th th' u, w.threads[i]? = some th → w.threads[j]? = some th' → th.stage = .made u →
    (∀ e ∈ th'.knows, e.2 ≠ u) ∧ (th'.stage = .made u → i = j)
  held : ∀ e ∈ w.catalog, w.log e.2 ≠ none ∨ Dropping w e.1

/-- The statements are what they were. -/
def Same (ss : List (Stmt × Nat)) (w : World) : Prop := w.threads.map (fun th => (th.stmt, th.session)) = ss

theorem catalog_seen {R D own w} (h : Inv R D own w) {e} (he : e ∈ w.catalog) : Seen R D w e :=
  ⟨h.lt e he, fun _ _ hm => eq_of_tables h.tables hm he, fun _ _ => he⟩

theorem goto_get {w : World} {i : Nat} {s : Stage} {th : Thread} (h : w.threads[i]? = some th) (j : Nat) (th' : Thread) :
    (w.goto i s).threads[j]? = some th' ↔
      (j = i ∧ th' = { th with stage := s }) ∨ (j ≠ i ∧ w.threads[j]? = some th') := by
  unfold World.goto
  simp only [List.getElem?_modify]
  by_cases hj : i = j
  · subst hj
    simp [h, eq_comm]
  · have : j ≠ i := fun h => hj h.symm
    cases w.threads[j]? <;> simp [hj, this]

theorem dropping_goto {w : World} {i : Nat} {s : Stage} {th : Thread} (h : w.threads[i]? = some th)
    (hs : th.stage ≠ .erased) {n : String} (hd : Dropping w n) : Dropping (w.goto i s) n := by
  obtain ⟨t, ht, h1, h2⟩ := hd
  obtain ⟨j, hj⟩ := List.mem_iff_getElem?.1 ht
  refine ⟨t, List.mem_iff_getElem?.2 ⟨j, (goto_get h j t).2 (.inr ⟨?_, hj⟩)⟩, h1, h2⟩
  rintro rfl
  rw [h] at hj
  cases hj
  exact hs h2

theorem dropping_self {w : World} {i : Nat} {th : Thread} (h : w.threads[i]? = some th) {n : String}
    (hn : th.stmt = .drop n) : Dropping (w.goto i .erased) n :=
  ⟨{ th with stage := .erased }, List.mem_iff_getElem?.2 ⟨i, (goto_get h i _).2 (.inl ⟨rfl, rfl⟩)⟩, hn, rfl⟩

/-- A step of statement `i` keeps the invariant if it keeps what concerns the stores and the other statements, and leads to
a fine stage. -/
theorem inv_goto {R D own} {w w' : World} {i : Nat} {th : Thread} {s : Stage} (h : Inv R D own w)
    (ht : w.threads[i]? = some th) (hw : w'.threads = w.threads)
    (names : (w'.catalog.map (·.1)).Nodup) (tables : (w'.catalog.map (·.2)).Nodup)
    (lt : ∀ e ∈ w'.catalog, e.2 < w'.next)
    (sess : ∀ s, ∀ e ∈ w'.session s, Seen R D w' e)
    (files : ∀ t l, w'.log t = some l → (∀ p ∈ l.live, p ∈ w'.dir t) ∧ ∀ p ∈ l.live, p ∉ l.dead)
    (others : ∀ (j : Nat) (th' : Thread), w.threads[j]? = some th' → j ≠ i → Fine R D own w' j th')
    (self : Fine R D own w' i { th with stage := s })
    (known : ∀ e ∈ Thread.knows { th with stage := s }, e ∈ th.knows ∨ e ∈ w.catalog ∨ ∃ x, e ∈ w.session x)
    (made : ∀ u, s = .made u → th.stage = .made u ∨
      ∀ (j : Nat) (th' : Thread), w.threads[j]? = some th' → (∀ e ∈ th'.knows, e.2 < u) ∧ ∀ v, th'.stage = .made v → v < u)
    (held : ∀ e ∈ w'.catalog, w'.log e.2 ≠ none ∨ Dropping (w'.goto i s) e.1) :
    Inv R D own (w'.goto i s) := by
  have ht' : w'.threads[i]? = some th := by rw [hw]; exact ht
  refine ⟨names, tables, lt, fun x e he => ⟨(sess x e he).1, (sess x e he).2, (sess x e he).3⟩, files, ?_, ?_, held⟩
  · intro j th' hj
    have : Fine R D own w' j th' := by
      rcases (goto_get ht' j th').1 hj with ⟨rfl, rfl⟩ | ⟨hji, hj⟩
      · exact self
      · exact others j th' (by rw [← hw]; exact hj) hji
    exact ⟨fun e he => ⟨(this.seen e he).1, (this.seen e he).2, (this.seen e he).3⟩, this.2, this.3, this.4, this.5, this.6,
      this.7⟩
  · intro a b tha thb u ha hb hu
    have old : ∀ (j : Nat) th', w.threads[j]? = some th' → th.stage = .made u →
        (∀ e ∈ th'.knows, e.2 ≠ u) ∧ (th'.stage = .made u → i = j) := fun j th' hj hs => h.made i j th th' u ht hj hs
    rcases (goto_get ht' a tha).1 ha with ⟨rfl, rfl⟩ | ⟨hai, ga⟩
    · have hsu : s = .made u := hu
      rcases (goto_get ht' b thb).1 hb with ⟨rfl, rfl⟩ | ⟨hbi, gb⟩
      · refine ⟨?_, fun _ => rfl⟩
        intro e he
        simp [Thread.knows, hsu] at he
      · rw [hw] at gb
        rcases made u hsu with h1 | h1
        · exact old b thb gb h1
        · obtain ⟨h2, h3⟩ := h1 b thb gb
          exact ⟨fun e he => Nat.ne_of_lt (h2 e he), fun hv => absurd (h3 u hv) (Nat.lt_irrefl _)⟩
    · rw [hw] at ga
      have f := (h.fine a tha ga).made u hu
      rcases (goto_get ht' b thb).1 hb with ⟨rfl, rfl⟩ | ⟨hbi, gb⟩
      · constructor
        · intro e he
          rcases known e he with h1 | h1 | ⟨x, h1⟩
          · exact (h.made a b tha th u ga ht hu).1 e h1
          · exact f.2.2.1 e h1
          · exact f.2.2.2 x e h1
        · intro hv
          have hsu : s = .made u := hv
          rcases made u hsu with h1 | h1
          · exact (h.made a b tha th u ga ht hu).2 h1
          · exact absurd ((h1 a tha ga).2 u hu) (Nat.lt_irrefl _)
      · rw [hw] at gb
        exact h.made a b tha thb u ga gb hu

/-- What is assumed of the statements. -/
structure Rules (R D : String → Prop) (own : Nat → Prop) (w : World) : Prop where
  ren : ∀ (i : Nat) th n m, w.threads[i]? = some th → th.stmt = .rename n m → R n
  drp : ∀ (i : Nat) th n, w.threads[i]? = some th → th.stmt = .drop n → D n
  excl : ∀ n, D n → ¬ R n
  mods : ∀ (i : Nat) th b n q k, w.threads[i]? = some th → th.stmt = .modify b n q k → own i ∨ (¬ R n ∧ ¬ D n)
  apart : ∀ (i j : Nat) th th', own i → w.threads[i]? = some th → w.threads[j]? = some th' → j ≠ i →
    th'.session ≠ th.session

/-- Steps that only change the stage. -/
theorem inv_stay {R D own} {w : World} {i : Nat} {th : Thread} {s : Stage} (h : Inv R D own w)
    (ht : w.threads[i]? = some th) (hs : th.stage ≠ .erased)
    (self : Fine R D own w i { th with stage := s })
    (known : ∀ e ∈ Thread.knows { th with stage := s }, e ∈ th.knows ∨ e ∈ w.catalog ∨ ∃ x, e ∈ w.session x)
    (made : ∀ u, s ≠ .made u) : Inv R D own (w.goto i s) := by
  refine inv_goto h ht rfl h.names h.tables h.lt h.sess h.files (fun j th' hj _ => h.fine j th' hj) self known
    (fun u hu => absurd hu (made u)) ?_
  intro e he
  exact (h.held e he).imp id (dropping_goto ht hs)

theorem fine_plain {R D own} {w : World} {i : Nat} {th : Thread} (s : Stage) (f : Fine R D own w i th)
    (hs : s = .ready ∨ s = .erased ∨ ∃ b, s = .finished b) (hf : ∀ b, th.stage ≠ .finished b) :
    Fine R D own w i { th with stage := s } := by
  refine ⟨?_, fun _ => f.clean hf, ?_, ?_, ?_, ?_, ?_⟩ <;> rcases hs with rfl | rfl | ⟨b, rfl⟩ <;> simp [Thread.knows]

theorem knows_plain {th : Thread} {s : Stage} (hs : s = .ready ∨ s = .erased ∨ ∃ b, s = .finished b) :
    Thread.knows { th with stage := s } = [] := by
  rcases hs with rfl | rfl | ⟨b, rfl⟩ <;> rfl

/-- Giving up, or going on without effect. -/
theorem inv_plain {R D own} {w : World} {i : Nat} {th : Thread} (s : Stage) (h : Inv R D own w)
    (ht : w.threads[i]? = some th) (he : th.stage ≠ .erased) (hf : ∀ b, th.stage ≠ .finished b)
    (hs : s = .ready ∨ s = .erased ∨ ∃ b, s = .finished b) : Inv R D own (w.goto i s) := by
  refine inv_stay h ht he (fine_plain s (h.fine i th ht) hs hf) ?_ ?_
  · rw [knows_plain hs]
    simp
  · rintro u rfl
    rcases hs with h | h | ⟨b, h⟩ <;> cases h

theorem inv_list {R D own} {w : World} {i : Nat} {th : Thread} (h : Inv R D own w)
    (ht : w.threads[i]? = some th) (hs : th.stage = .start) : Inv R D own (w.goto i (.listed w.catalog)) := by
  refine inv_stay h ht (by rw [hs]; simp) ?_ ?_ (by simp)
  · refine ⟨fun e he => catalog_seen h he, fun _ => (h.fine i th ht).clean (by simp [hs]), ?_, ?_, ?_, ?_, ?_⟩ <;> simp
  · intro e he
    exact .inr (.inl he)

theorem inv_register {R D own} {w : World} {i : Nat} {th : Thread} {c : Names} (h : Inv R D own w)
    (hr : Rules R D own w) (ht : w.threads[i]? = some th) (hs : th.stage = .listed c) :
    Inv R D own (({ w with session := set w.session th.session c } : World).goto i .ready) := by
  have f := h.fine i th ht
  have hk : th.knows = c := by simp [Thread.knows, hs]
  have hc : ∀ e ∈ c, Seen R D w e := by rw [← hk]; exact f.seen
  refine inv_goto h ht rfl h.names h.tables h.lt ?_ h.files ?_ ?_ ?_ (by simp) ?_
  · intro x e he
    have hx : e ∈ set w.session th.session c x := he
    unfold set at hx
    split at hx
    · exact ⟨(hc e hx).1, (hc e hx).2, (hc e hx).3⟩
    · exact ⟨(h.sess x e hx).1, (h.sess x e hx).2, (h.sess x e hx).3⟩
  · intro j th' hj hji
    have g := h.fine j th' hj
    refine ⟨fun e he => ⟨(g.seen e he).1, (g.seen e he).2, (g.seen e he).3⟩, g.clean, g.found, g.both, g.wrote, ?_, ?_⟩
    · intro ho b n q k h1 t h2
      have hd := hr.apart j i th' th ho hj ht (fun e => hji e.symm)
      have := g.same ho b n q k h1 t h2
      show (set w.session th.session c th'.session).find n = some t
      unfold set
      rw [if_neg (fun e => hd e.symm)]
      exact this
    · intro u hu
      obtain ⟨h1, h2, h3, h4⟩ := g.made u hu
      refine ⟨h1, h2, h3, ?_⟩
      intro x e he
      have hx : e ∈ set w.session th.session c x := he
      unfold set at hx
      split at hx
      · exact (h.made j i th' th u hj ht hu).1 e (by rw [hk]; exact hx)
      · exact h4 x e hx
  · refine ⟨by simp [Thread.knows], fun _ => f.clean (by simp [hs]), ?_, ?_, ?_, ?_, ?_⟩ <;> simp
  · simp [Thread.knows]
  · intro e he
    exact (h.held e he).imp id (fun hd => dropping_goto (w := { w with session := _ }) ht (by rw [hs]; simp) hd)

/-! #### lookups -/

theorem look_some {w : World} {s : Nat} {n : String} {t : Table} {l : Log} (h : w.look s n = some (t, l)) :
    (w.session s).find n = some t ∧ w.log t = some l := by
  unfold World.look at h
  split at h
  · cases h
  · next t' e =>
    rw [Option.map_eq_some_iff] at h
    obtain ⟨l', hl, h'⟩ := h
    cases h'
    exact ⟨e, hl⟩

theorem inv_named {R D own} {w : World} {i : Nat} {th : Thread} {u : Table} (h : Inv R D own w)
    (ht : w.threads[i]? = some th) (hs : th.stage = .ready)
    (hu : (w.session th.session).find th.stmt.name = some u) : Inv R D own (w.goto i (.named u)) := by
  have hm := find_mem hu
  refine inv_stay h ht (by rw [hs]; simp) ?_ ?_ (by simp)
  · refine ⟨?_, fun _ => (h.fine i th ht).clean (by simp [hs]), ?_, ?_, ?_, ?_, ?_⟩
    · intro e he
      simp only [Thread.knows, List.mem_singleton] at he
      subst he
      exact h.sess _ _ hm
    · simp
    · simp
    · simp
    · intro _ b n q k h1 t h2
      simp only [Stage.named.injEq, reduceCtorEq, exists_false, or_false] at h2
      subst h2
      have h1 : th.stmt = .modify b n q k := h1
      rw [h1] at hu
      exact hu
    · simp
  · intro e he
    simp only [Thread.knows, List.mem_singleton] at he
    subst he
    exact .inr (.inr ⟨_, hm⟩)

theorem inv_found {R D own} {w : World} {i : Nat} {th : Thread} {t : Table} {l : Log} (h : Inv R D own w)
    (ht : w.threads[i]? = some th) (hs : th.stage = .ready)
    (hu : w.look th.session th.stmt.name = some (t, l)) : Inv R D own (w.goto i (.found t l)) := by
  obtain ⟨hu, hl⟩ := look_some hu
  have hm := find_mem hu
  refine inv_stay h ht (by rw [hs]; simp) ?_ ?_ (by simp)
  · refine ⟨?_, fun _ => (h.fine i th ht).clean (by simp [hs]), ?_, ?_, ?_, ?_, ?_⟩
    · intro e he
      simp only [Thread.knows, List.mem_singleton] at he
      subst he
      exact h.sess _ _ hm
    · intro t' l' h1 l2 h2 p hp
      cases h1
      rw [hl] at h2
      cases h2
      exact hp
    · simp
    · simp
    · intro _ b n q k h1 t' h2
      have h1 : th.stmt = .modify b n q k := h1
      rw [h1] at hu
      rcases h2 with h2 | ⟨l', h2⟩
      · cases h2
      · cases h2
        exact hu
    · simp
  · intro e he
    simp only [Thread.knows, List.mem_singleton] at he
    subst he
    exact .inr (.inr ⟨_, hm⟩)

/-- The two lookups of an UPDATE or DELETE find the same table. -/
theorem lookups_agree {R D own} {w : World} {i : Nat} {th : Thread} {b n q k} {t u : Table} (h : Inv R D own w)
    (hr : Rules R D own w) (ht : w.threads[i]? = some th) (hn : th.stmt = .modify b n q k)
    (hs : th.stage = .named t ∨ ∃ l, th.stage = .found t l) (hu : (w.session th.session).find n = some u) : t = u := by
  have f := h.fine i th ht
  rcases hr.mods i th b n q k ht hn with ho | ⟨h1, h2⟩
  · have := f.same ho b n q k hn t hs
    rw [hu] at this
    cases this
    rfl
  · have hk : (n, t) ∈ th.knows := by
      rcases hs with hs | ⟨l, hs⟩ <;> simp [Thread.knows, hs, hn, Stmt.name]
    exact eq_of_names h.names ((f.seen _ hk).stay h1 h2) ((h.sess _ _ (find_mem hu)).stay h1 h2)

theorem inv_both {R D own} {w : World} {i : Nat} {th : Thread} {b n q k} {t u : Table} {l : Log} (h : Inv R D own w)
    (hr : Rules R D own w) (ht : w.threads[i]? = some th) (hn : th.stmt = .modify b n q k)
    (hs : (th.stage = .named u ∧ (w.session th.session).find n = some t) ∨
      (∃ l', th.stage = .found t l') ∧ (w.session th.session).find n = some u) :
    Inv R D own (w.goto i (.both t l u)) := by
  have f := h.fine i th ht
  have htu : t = u := by
    rcases hs with ⟨h1, h2⟩ | ⟨h1, h2⟩
    · exact (lookups_agree h hr ht hn (.inl h1) h2).symm
    · exact lookups_agree h hr ht hn (.inr h1) h2
  have hlt : t < w.next := by
    rcases hs with ⟨_, h2⟩ | ⟨_, h2⟩
    · exact (h.sess _ _ (find_mem h2)).lt
    · rw [htu]
      exact (h.sess _ _ (find_mem h2)).lt
  have hst : ∀ x, th.stage = x → x ≠ .erased ∧ ∀ b, x ≠ .finished b := by
    rintro x rfl
    rcases hs with ⟨h1, _⟩ | ⟨⟨l', h1⟩, _⟩ <;> simp [h1]
  refine inv_stay h ht (hst _ rfl).1 ?_ ?_ (by simp)
  · refine ⟨by simp [Thread.knows], fun _ => f.clean (hst _ rfl).2, ?_, ?_, ?_, ?_, ?_⟩
    · simp
    · intro t' l' u' h1
      cases h1
      exact ⟨htu, hlt⟩
    · simp
    · simp
    · simp
  · simp [Thread.knows]

/-! #### effects -/

theorem set_same {α : Type} (g : Nat → α) (k : Nat) (v : α) : set g k v k = v := by simp [set]

theorem set_other {α : Type} (g : Nat → α) {k x : Nat} (v : α) (h : x ≠ k) : set g k v x = g x := by simp [set, h]

theorem set_none {g : Table → Option Log} {k x : Table} {l : Log} (h : set g k none x = some l) : x ≠ k ∧ g x = some l := by
  unfold set at h
  split at h
  · cases h
  · exact ⟨by assumption, h⟩

/-- DROP deletes the files of the table that its session has under the name. -/
theorem inv_erase {R D own} {w : World} {i : Nat} {th : Thread} {n : String} {t : Table} (h : Inv R D own w)
    (hr : Rules R D own w) (ht : w.threads[i]? = some th) (hs : th.stage = .ready) (hn : th.stmt = .drop n)
    (hu : (w.session th.session).find n = some t) :
    Inv R D own (({ w with log := set w.log t none, dir := set w.dir t [] } : World).goto i .erased) := by
  have hm := find_mem hu
  have f := h.fine i th ht
  refine inv_goto h ht rfl h.names h.tables h.lt ?_ ?_ ?_ ?_ ?_ (by simp) ?_
  · intro x e he
    exact ⟨(h.sess x e he).1, (h.sess x e he).2, (h.sess x e he).3⟩
  · intro x l hl
    obtain ⟨h1, h2⟩ := set_none hl
    have := h.files x l h2
    refine ⟨?_, this.2⟩
    intro p hp
    show p ∈ set w.dir t [] x
    rw [set_other _ _ h1]
    exact this.1 p hp
  · intro j th' hj hji
    have g := h.fine j th' hj
    refine ⟨fun e he => ⟨(g.seen e he).1, (g.seen e he).2, (g.seen e he).3⟩, ?_, ?_, g.both, ?_, g.same, ?_⟩
    · intro hf x l hl
      exact g.clean hf x l (set_none hl).2
    · intro x l hx l' hl'
      exact g.found x l hx l' (set_none hl').2
    · intro x r a hx
      obtain ⟨h1, h2, h3⟩ := g.wrote x r a hx
      refine ⟨h1, h2, ?_⟩
      intro l hl p hp
      obtain ⟨h4, h5⟩ := set_none hl
      show p ∈ set w.dir t [] x
      rw [set_other _ _ h4]
      exact h3 l h5 p hp
    · intro u hx
      obtain ⟨h1, h2, h3, h4⟩ := g.made u hx
      refine ⟨h1, ?_, h3, h4⟩
      show set w.log t none u ≠ none
      rw [set_other _ _ (fun e => h4 _ _ hm e.symm)]
      exact h2
  · refine ⟨by simp [Thread.knows], ?_, ?_, ?_, ?_, ?_, ?_⟩
    · intro _ x l hl
      exact f.clean (by simp [hs]) x l (set_none hl).2
    all_goals simp
  · simp [Thread.knows]
  · intro e he
    by_cases het : e.2 = t
    · have hR : ¬ R n := hr.excl n (hr.drp i th n ht hn)
      have : e.1 = n := (h.sess _ _ hm).kept hR e.1 (by show (e.1, t) ∈ w.catalog; rw [← het]; exact he)
      rw [this]
      exact .inr (dropping_self (w := { w with log := _, dir := _ }) ht hn)
    · rcases h.held e he with h1 | h1
      · left
        show set w.log t none e.2 ≠ none
        rw [set_other _ _ het]
        exact h1
      · exact .inr (dropping_goto (w := { w with log := _, dir := _ }) ht (by rw [hs]; simp) h1)

def moved (n m : String) (e : String × Table) : String × Table := if e.1 == n then (m, e.2) else e

theorem moved_snd (n m : String) (e : String × Table) : (moved n m e).2 = e.2 := by
  unfold moved
  split <;> rfl

theorem mem_moved {c : Names} {n m : String} {e : String × Table} (h : e ∈ c.map (moved n m)) :
    (e ∈ c ∧ e.1 ≠ n) ∨ (e.1 = m ∧ (n, e.2) ∈ c) := by
  obtain ⟨a, ha, rfl⟩ := List.mem_map.1 h
  unfold moved
  split
  · next hn =>
    right
    simp only [beq_iff_eq] at hn
    refine ⟨rfl, ?_⟩
    rw [← hn]
    exact ha
  · next hn =>
    left
    exact ⟨ha, by simpa using hn⟩

theorem moved_names {c : Names} {n m : String} (h : (c.map (·.1)).Nodup) (hm : c.find m = none) :
    ((c.map (moved n m)).map (·.1)).Nodup := by
  have hm' := find_none hm
  clear hm
  induction c with
  | nil => simp
  | cons e c ih =>
    have hm2 : ∀ t, (m, t) ∉ c := fun t ht => hm' t (List.mem_cons_of_mem _ ht)
    have hem : e.1 ≠ m := fun h => hm' e.2 (by rw [← h]; exact List.mem_cons_self)
    simp only [List.map_cons, List.nodup_cons] at h
    simp only [List.map_cons, List.nodup_cons]
    refine ⟨?_, ih h.2 hm2⟩
    intro hx
    obtain ⟨a, ha, hae⟩ := List.mem_map.1 hx
    have key : ∀ b ∈ c, b.1 ≠ e.1 := fun b hb hbe => h.1 (hbe ▸ List.mem_map_of_mem hb)
    rcases mem_moved ha with ⟨h1, h2⟩ | ⟨h1, h2⟩
    · unfold moved at hae
      split at hae
      · have : a = (m, a.2) := Prod.ext hae rfl
        exact hm2 a.2 (this ▸ h1)
      · exact key a h1 hae
    · unfold moved at hae
      split at hae
      · next hn => exact key _ h2 (by simpa using Eq.symm (by simpa using hn))
      · exact hem (hae.symm.trans h1)

theorem moved_tables (c : Names) (n m : String) : (c.map (moved n m)).map (·.2) = c.map (·.2) := by
  rw [List.map_map]
  apply List.map_congr_left
  intro e _
  exact moved_snd n m e

theorem inv_rename {R D own} {w : World} {i : Nat} {th : Thread} {n m : String} (h : Inv R D own w)
    (hr : Rules R D own w) (ht : w.threads[i]? = some th) (hs : th.stage = .ready) (hn : th.stmt = .rename n m)
    (hf : w.catalog.find m = none) :
    Inv R D own (({ w with catalog := w.catalog.map (moved n m) } : World).goto i (.finished true)) := by
  have hR : R n := hr.ren i th n m ht hn
  have f := h.fine i th ht
  have hseen : ∀ e, Seen R D w e → Seen R D { w with catalog := w.catalog.map (moved n m) } e := by
    intro e he
    have hne : ¬ R e.1 → e.1 ≠ n := fun h1 h2 => h1 (h2 ▸ hR)
    refine ⟨he.lt, ?_, ?_⟩
    · intro h1 x hx
      rcases mem_moved hx with ⟨h2, _⟩ | ⟨_, h2⟩
      · exact he.kept h1 x h2
      · exact absurd (he.kept h1 n h2).symm (hne h1)
    · intro h1 h2
      refine List.mem_map.2 ⟨e, he.stay h1 h2, ?_⟩
      unfold moved
      rw [if_neg (by simpa using hne h1)]
  have hcat : ∀ e ∈ w.catalog.map (moved n m), ∃ e' ∈ w.catalog, e'.2 = e.2 := by
    intro e he
    obtain ⟨a, ha, rfl⟩ := List.mem_map.1 he
    exact ⟨a, ha, (moved_snd n m a).symm⟩
  refine inv_goto h ht rfl (moved_names h.names hf) ?_ ?_ (fun x e he => hseen e (h.sess x e he)) h.files ?_ ?_ ?_ (by simp) ?_
  · show ((w.catalog.map (moved n m)).map (·.2)).Nodup
    rw [moved_tables]
    exact h.tables
  · intro e he
    obtain ⟨e', he', h2⟩ := hcat e he
    rw [← h2]
    exact h.lt e' he'
  · intro j th' hj hji
    have g := h.fine j th' hj
    refine ⟨fun e he => hseen e (g.seen e he), g.clean, g.found, g.both, g.wrote, g.same, ?_⟩
    intro u hu
    obtain ⟨h1, h2, h3, h4⟩ := g.made u hu
    refine ⟨h1, h2, ?_, h4⟩
    intro e he
    obtain ⟨e', he', h5⟩ := hcat e he
    rw [← h5]
    exact h3 e' he'
  · refine ⟨by simp [Thread.knows], ?_, ?_, ?_, ?_, ?_, ?_⟩ <;> simp
  · simp [Thread.knows]
  · intro e he
    have step : ∀ x, Dropping w x →
        Dropping (({ w with catalog := w.catalog.map (moved n m) } : World).goto i (.finished true)) x :=
      fun x hx => dropping_goto (w := { w with catalog := _ }) ht (by rw [hs]; simp) hx
    rcases mem_moved he with ⟨h1, _⟩ | ⟨_, h1⟩
    · exact (h.held e h1).imp id (step _)
    · rcases h.held _ h1 with h2 | h2
      · exact .inl h2
      · obtain ⟨t, htm, h3, _⟩ := h2
        obtain ⟨j, hj⟩ := List.mem_iff_getElem?.1 htm
        exact absurd hR (hr.excl n (hr.drp j t n hj h3))

theorem seen_next {R D} {w w' : World} {e} (hc : w'.catalog = w.catalog) (hn : w.next ≤ w'.next) (h : Seen R D w e) :
    Seen R D w' e :=
  ⟨Nat.lt_of_lt_of_le h.lt hn, fun h1 m hm => h.kept h1 m (hc ▸ hm), fun h1 h2 => hc ▸ h.stay h1 h2⟩

theorem inv_create {R D own} {w : World} {i : Nat} {th : Thread} (h : Inv R D own w)
    (ht : w.threads[i]? = some th) (hs : th.stage = .ready) :
    Inv R D own (({ w with log := set w.log w.next (some ⟨[], []⟩), dir := set w.dir w.next [], next := w.next + 1 } :
      World).goto i (.made w.next)) := by
  have f := h.fine i th ht
  have hlog : ∀ x l, set w.log w.next (some ⟨[], []⟩) x = some l → (l = ⟨[], []⟩ ∧ x = w.next) ∨ w.log x = some l := by
    intro x l hx
    unfold set at hx
    split at hx
    · next hxn => exact .inl ⟨(Option.some.inj hx).symm, hxn⟩
    · exact .inr hx
  refine inv_goto h ht rfl h.names h.tables (fun e he => Nat.lt_succ_of_lt (h.lt e he))
    (fun x e he => seen_next (w := w) rfl (Nat.le_succ _) (h.sess x e he)) ?_ ?_ ?_ ?_ ?_ ?_
  · intro x l hl
    rcases hlog x l hl with ⟨rfl, _⟩ | h1
    · simp
    · refine ⟨?_, (h.files x l h1).2⟩
      intro p hp
      show p ∈ set w.dir w.next [] x
      by_cases hx : x = w.next
      · have hl' : set w.log w.next (some ⟨[], []⟩) x = some l := hl
        rw [hx, set_same] at hl'
        cases hl'
        simp at hp
      · rw [set_other _ _ hx]
        exact (h.files x l h1).1 p hp
  · intro j th' hj hji
    have g := h.fine j th' hj
    have old : ∀ x l, x < w.next → set w.log w.next (some ⟨[], []⟩) x = some l → w.log x = some l := by
      intro x l hx hl
      rwa [set_other _ _ (Nat.ne_of_lt hx)] at hl
    refine ⟨fun e he => seen_next (w := w) rfl (Nat.le_succ _) (g.seen e he), ?_, ?_, ?_, ?_, g.same, ?_⟩
    · intro hf x l hl k
      rcases hlog x l hl with ⟨rfl, _⟩ | h1
      · simp
      · exact g.clean hf x l h1 k
    · intro x l hx l' hl' p hp
      have : x < w.next := (g.seen (th'.stmt.name, x) (by simp [Thread.knows, hx])).lt
      exact g.found x l hx l' (old x l' this hl') p hp
    · intro x l u hx
      exact ⟨(g.both x l u hx).1, Nat.lt_succ_of_lt (g.both x l u hx).2⟩
    · intro x r a hx
      obtain ⟨h1, h2, h3⟩ := g.wrote x r a hx
      refine ⟨Nat.lt_succ_of_lt h1, h2, ?_⟩
      intro l hl p hp
      show p ∈ set w.dir w.next [] x
      rw [set_other _ _ (Nat.ne_of_lt h1)]
      exact h3 l (old x l h1 hl) p hp
    · intro u hu
      obtain ⟨h1, h2, h3, h4⟩ := g.made u hu
      refine ⟨Nat.lt_succ_of_lt h1, ?_, h3, h4⟩
      show set w.log w.next _ u ≠ none
      rw [set_other _ _ (Nat.ne_of_lt h1)]
      exact h2
  · refine ⟨by simp [Thread.knows], ?_, by simp, by simp, by simp, by simp, ?_⟩
    · intro _ x l hl k
      rcases hlog x l hl with ⟨rfl, _⟩ | h1
      · simp
      · exact f.clean (by simp [hs]) x l h1 k
    · intro u hu
      cases hu
      refine ⟨Nat.lt_succ_self _, ?_, fun e he => Nat.ne_of_lt (h.lt e he), fun x e he => Nat.ne_of_lt (h.sess x e he).lt⟩
      show set w.log w.next _ w.next ≠ none
      rw [set_same]
      simp
  · simp [Thread.knows]
  · intro u hu
    cases hu
    right
    intro j th' hj
    have g := h.fine j th' hj
    exact ⟨fun e he => (g.seen e he).lt, fun v hv => (g.made v hv).1⟩
  · intro e he
    rcases h.held e he with h1 | h1
    · left
      show set w.log w.next _ e.2 ≠ none
      rw [set_other _ _ (Nat.ne_of_lt (h.lt e he))]
      exact h1
    · exact .inr (dropping_goto (w := { w with log := _, dir := _, next := _ }) ht (by rw [hs]; simp) h1)

/-- Writing files to a directory, before they are committed to its log. -/
theorem inv_write {R D own} {w : World} {i : Nat} {th : Thread} {t : Table} {removes adds : List Path} (h : Inv R D own w)
    (ht : w.threads[i]? = some th) (he : th.stage ≠ .erased) (hf : ∀ b, th.stage ≠ .finished b) (hlt : t < w.next)
    (ha : ∀ p ∈ adds, p.1 = some i) :
    Inv R D own (({ w with dir := set w.dir t (w.dir t ++ adds) } : World).goto i (.wrote t removes adds)) := by
  have f := h.fine i th ht
  have hdir : ∀ x p, p ∈ w.dir x → p ∈ set w.dir t (w.dir t ++ adds) x := by
    intro x p hp
    unfold set
    split
    · next hx => subst hx; exact List.mem_append_left _ hp
    · exact hp
  refine inv_goto h ht rfl h.names h.tables h.lt (fun x e he => seen_next (w := w) rfl (Nat.le_refl _) (h.sess x e he))
    ?_ ?_ ?_ ?_ (by simp) ?_
  · intro x l hl
    exact ⟨fun p hp => hdir x p ((h.files x l hl).1 p hp), (h.files x l hl).2⟩
  · intro j th' hj hji
    have g := h.fine j th' hj
    refine ⟨fun e he => seen_next (w := w) rfl (Nat.le_refl _) (g.seen e he), g.clean, g.found, g.both, ?_, g.same, g.made⟩
    intro x r a hx
    obtain ⟨h1, h2, h3⟩ := g.wrote x r a hx
    exact ⟨h1, h2, fun l hl p hp => hdir x p (h3 l hl p hp)⟩
  · refine ⟨by simp [Thread.knows], fun _ => f.clean hf, by simp, by simp, ?_, by simp, by simp⟩
    intro x r a hx
    cases hx
    refine ⟨hlt, ha, ?_⟩
    intro l _ p hp
    show p ∈ set w.dir t (w.dir t ++ adds) t
    rw [set_same]
    exact List.mem_append_right _ hp
  · simp [Thread.knows]
  · intro e hce
    exact (h.held e hce).imp id (fun hd => dropping_goto (w := { w with dir := _ }) ht he hd)

theorem inv_vacuum {R D own} {w : World} {i : Nat} {th : Thread} {t : Table} {l : Log} (h : Inv R D own w)
    (ht : w.threads[i]? = some th) (hs : th.stage = .found t l) :
    Inv R D own (({ w with dir := set w.dir t ((w.dir t).filter fun p => !l.dead.contains p) } : World).goto i
      (.finished true)) := by
  have f := h.fine i th ht
  have hdir : ∀ x p l', w.log x = some l' → p ∉ l'.dead → p ∈ w.dir x →
      p ∈ set w.dir t ((w.dir t).filter fun p => !l.dead.contains p) x := by
    intro x p l' hl' hd hp
    unfold set
    split
    · next hx =>
      subst hx
      refine List.mem_filter.2 ⟨hp, ?_⟩
      have : p ∉ l.dead := fun hc => hd (f.found x l hs l' hl' p hc)
      simpa using this
    · exact hp
  refine inv_goto h ht rfl h.names h.tables h.lt (fun x e he => seen_next (w := w) rfl (Nat.le_refl _) (h.sess x e he))
    ?_ ?_ ?_ ?_ (by simp) ?_
  · intro x l' hl
    exact ⟨fun p hp => hdir x p l' hl ((h.files x l' hl).2 p hp) ((h.files x l' hl).1 p hp), (h.files x l' hl).2⟩
  · intro j th' hj hji
    have g := h.fine j th' hj
    refine ⟨fun e he => seen_next (w := w) rfl (Nat.le_refl _) (g.seen e he), g.clean, g.found, g.both, ?_, g.same, g.made⟩
    intro x r a hx
    obtain ⟨h1, h2, h3⟩ := g.wrote x r a hx
    refine ⟨h1, h2, fun l' hl p hp => hdir x p l' hl ?_ (h3 l' hl p hp)⟩
    have h4 := (g.clean (by simp [hx]) x l' hl p.2).2
    rwa [show (some j, p.2) = p from Prod.ext (h2 p hp).symm rfl] at h4
  · refine ⟨by simp [Thread.knows], by simp, by simp, by simp, by simp, by simp, by simp⟩
  · simp [Thread.knows]
  · intro e hce
    exact (h.held e hce).imp id (fun hd => dropping_goto (w := { w with dir := _ }) ht (by rw [hs]; simp) hd)

theorem inv_commit {R D own} {w : World} {i : Nat} {th : Thread} {t : Table} {r a : List Path} {l : Log} (h : Inv R D own w)
    (ht : w.threads[i]? = some th) (hs : th.stage = .wrote t r a) (hl : w.log t = some l) (hr : ∀ p ∈ r, p ∈ l.live) :
    Inv R D own (({ w with log := set w.log t (some ⟨l.live.filter (fun p => !r.contains p) ++ a, l.dead ++ r⟩) } :
      World).goto i (.finished true)) := by
  have f := h.fine i th ht
  obtain ⟨hlt, ha, hin⟩ := f.wrote t r a hs
  have hcl : ∀ p ∈ a, p ∉ l.live ∧ p ∉ l.dead := by
    intro p hp
    have := f.clean (by simp [hs]) t l hl p.2
    rwa [show (some i, p.2) = p from Prod.ext (ha p hp).symm rfl] at this
  have hlog : ∀ x l', set w.log t (some ⟨l.live.filter (fun p => !r.contains p) ++ a, l.dead ++ r⟩) x = some l' →
      (x = t ∧ l' = ⟨l.live.filter (fun p => !r.contains p) ++ a, l.dead ++ r⟩) ∨ (x ≠ t ∧ w.log x = some l') := by
    intro x l' hx
    unfold set at hx
    split at hx
    · next hxt => exact .inl ⟨hxt, (Option.some.inj hx).symm⟩
    · next hxt => exact .inr ⟨hxt, hx⟩
  refine inv_goto h ht rfl h.names h.tables h.lt (fun x e he => seen_next (w := w) rfl (Nat.le_refl _) (h.sess x e he))
    ?_ ?_ ?_ ?_ (by simp) ?_
  · intro x l' hx
    rcases hlog x l' hx with ⟨rfl, rfl⟩ | ⟨_, h1⟩
    · obtain ⟨h1, h2⟩ := h.files x l hl
      constructor
      · intro p hp
        rcases List.mem_append.1 hp with hp | hp
        · exact h1 p (List.mem_filter.1 hp).1
        · exact hin l hl p hp
      · intro p hp hq
        rcases List.mem_append.1 hp with hp | hp <;> rcases List.mem_append.1 hq with hq | hq
        · exact h2 p (List.mem_filter.1 hp).1 hq
        · have := (List.mem_filter.1 hp).2
          simp [hq] at this
        · exact (hcl p hp).2 hq
        · exact (hcl p hp).1 (hr p hq)
    · exact h.files x l' h1
  · intro j th' hj hji
    have g := h.fine j th' hj
    refine ⟨fun e he => seen_next (w := w) rfl (Nat.le_refl _) (g.seen e he), ?_, ?_, g.both, ?_, g.same, ?_⟩
    · intro hf x l' hx k
      rcases hlog x l' hx with ⟨rfl, rfl⟩ | ⟨_, h1⟩
      · obtain ⟨c1, c2⟩ := g.clean hf x l hl k
        have hna : (some j, k) ∉ a := fun hc => hji (by simpa using ha _ hc)
        constructor
        · intro hc
          rcases List.mem_append.1 hc with hc | hc
          · exact c1 (List.mem_filter.1 hc).1
          · exact hna hc
        · intro hc
          rcases List.mem_append.1 hc with hc | hc
          · exact c2 hc
          · exact c1 (hr _ hc)
      · exact g.clean hf x l' h1 k
    · intro x l1 hx l' hl' p hp
      rcases hlog x l' hl' with ⟨rfl, rfl⟩ | ⟨_, h1⟩
      · exact List.mem_append_left _ (g.found x l1 hx l hl p hp)
      · exact g.found x l1 hx l' h1 p hp
    · intro x r' a' hx
      obtain ⟨h1, h2, h3⟩ := g.wrote x r' a' hx
      refine ⟨h1, h2, ?_⟩
      intro l' hl' p hp
      rcases hlog x l' hl' with ⟨rfl, _⟩ | ⟨_, h4⟩
      · exact h3 l hl p hp
      · exact h3 l' h4 p hp
    · intro u hu
      obtain ⟨h1, h2, h3, h4⟩ := g.made u hu
      refine ⟨h1, ?_, h3, h4⟩
      show set w.log t _ u ≠ none
      unfold set
      split
      · simp
      · exact h2
  · refine ⟨by simp [Thread.knows], by simp, by simp, by simp, by simp, by simp, by simp⟩
  · simp [Thread.knows]
  · intro e hce
    rcases h.held e hce with h1 | h1
    · left
      show set w.log t _ e.2 ≠ none
      unfold set
      split
      · simp
      · exact h1
    · exact .inr (dropping_goto (w := { w with log := _ }) ht (by rw [hs]; simp) h1)

theorem inv_enter {R D own} {w : World} {i : Nat} {th : Thread} {n : String} {u : Table} (h : Inv R D own w)
    (hr : Rules R D own w) (ht : w.threads[i]? = some th) (hs : th.stage = .made u) (hf : w.catalog.find n = none) :
    Inv R D own (({ w with
      catalog := w.catalog ++ [(n, u)],
      session := set w.session th.session ((n, u) :: w.session th.session) } : World).goto i (.finished true)) := by
  have f := h.fine i th ht
  obtain ⟨h1, h2, h3, h4⟩ := f.made u hs
  have hseen : ∀ e, Seen R D w e → e.2 ≠ u → Seen R D { w with
      catalog := w.catalog ++ [(n, u)], session := set w.session th.session ((n, u) :: w.session th.session) } e := by
    intro e he hne
    refine ⟨he.lt, ?_, fun a b => List.mem_append_left _ (he.stay a b)⟩
    intro hR m hm
    rcases List.mem_append.1 hm with hm | hm
    · exact he.kept hR m hm
    · simp only [List.mem_singleton, Prod.mk.injEq] at hm
      exact absurd hm.2 hne
  have hses : ∀ x, ∀ e ∈ set w.session th.session ((n, u) :: w.session th.session) x, e = (n, u) ∨ e ∈ w.session x := by
    intro x e he
    unfold set at he
    split at he
    · next hx =>
      rcases List.mem_cons.1 he with h | h
      · exact .inl h
      · exact .inr (by rw [hx]; exact h)
    · exact .inr he
  refine inv_goto h ht rfl ?_ ?_ ?_ ?_ h.files ?_ ?_ ?_ (by simp) ?_
  · show ((w.catalog ++ [(n, u)]).map (·.1)).Nodup
    rw [List.map_append, List.nodup_append]
    refine ⟨h.names, by simp, ?_⟩
    intro a ha b hb
    simp only [List.map_cons, List.map_nil, List.mem_singleton] at hb
    subst hb
    obtain ⟨e, he, rfl⟩ := List.mem_map.1 ha
    intro hc
    exact find_none hf e.2 (hc ▸ he)
  · show ((w.catalog ++ [(n, u)]).map (·.2)).Nodup
    rw [List.map_append, List.nodup_append]
    refine ⟨h.tables, by simp, ?_⟩
    intro a ha b hb
    simp only [List.map_cons, List.map_nil, List.mem_singleton] at hb
    subst hb
    obtain ⟨e, he, rfl⟩ := List.mem_map.1 ha
    exact h3 e he
  · intro e he
    rcases List.mem_append.1 he with he | he
    · exact h.lt e he
    · simp only [List.mem_singleton] at he
      subst he
      exact h1
  · intro x e he
    rcases hses x e he with rfl | he
    · refine ⟨h1, ?_, fun _ _ => List.mem_append_right _ (by simp)⟩
      intro _ m hm
      rcases List.mem_append.1 hm with hm | hm
      · exact absurd rfl (h3 _ hm)
      · simp only [List.mem_singleton, Prod.mk.injEq] at hm
        exact hm.1
    · exact hseen e (h.sess x e he) (h4 x e he)
  · intro j th' hj hji
    have g := h.fine j th' hj
    have hu := h.made i j th th' u ht hj hs
    refine ⟨fun e he => hseen e (g.seen e he) (hu.1 e he), g.clean, g.found, g.both, g.wrote, ?_, ?_⟩
    · intro ho b n' q k hst t hx
      have hd := hr.apart j i th' th ho hj ht (fun e => hji e.symm)
      show (set w.session th.session _ th'.session).find n' = some t
      rw [set_other _ _ (fun e => hd e.symm)]
      exact g.same ho b n' q k hst t hx
    · intro v hv
      have huv : u ≠ v := fun e => hji (hu.2 (e ▸ hv)).symm
      obtain ⟨g1, g2, g3, g4⟩ := g.made v hv
      refine ⟨g1, g2, ?_, ?_⟩
      · intro e he
        rcases List.mem_append.1 he with he | he
        · exact g3 e he
        · simp only [List.mem_singleton] at he
          subst he
          exact huv
      · intro x e he
        rcases hses x e he with rfl | he
        · exact huv
        · exact g4 x e he
  · refine ⟨by simp [Thread.knows], by simp, by simp, by simp, by simp, by simp, by simp⟩
  · simp [Thread.knows]
  · intro e he
    rcases List.mem_append.1 he with he | he
    · exact (h.held e he).imp id (fun hd => dropping_goto (w := { w with catalog := _, session := _ }) ht (by rw [hs]; simp) hd)
    · simp only [List.mem_singleton] at he
      subst he
      exact .inl h2

theorem dropping_other {w : World} {i : Nat} {s : Stage} {th : Thread} {n m : String} (h : w.threads[i]? = some th)
    (hn : th.stmt = .drop n) (hm : m ≠ n) (hd : Dropping w m) : Dropping (w.goto i s) m := by
  obtain ⟨t, ht, h1, h2⟩ := hd
  obtain ⟨j, hj⟩ := List.mem_iff_getElem?.1 ht
  refine ⟨t, List.mem_iff_getElem?.2 ⟨j, (goto_get h j t).2 (.inr ⟨?_, hj⟩)⟩, h1, h2⟩
  rintro rfl
  rw [h] at hj
  cases hj
  rw [hn] at h1
  exact hm (Stmt.drop.inj h1).symm

theorem inv_forget {R D own} {w : World} {i : Nat} {th : Thread} {n : String} {ok : Bool} (h : Inv R D own w)
    (hr : Rules R D own w) (ht : w.threads[i]? = some th) (hn : th.stmt = .drop n) :
    Inv R D own (({ w with catalog := w.catalog.filter fun e => e.1 != n } : World).goto i (.finished ok)) := by
  have hD : D n := hr.drp i th n ht hn
  have hseen : ∀ e, Seen R D w e → Seen R D { w with catalog := w.catalog.filter fun e => e.1 != n } e := by
    intro e he
    refine ⟨he.lt, fun hR m hm => he.kept hR m (List.mem_filter.1 hm).1, ?_⟩
    intro a b
    refine List.mem_filter.2 ⟨he.stay a b, ?_⟩
    have : e.1 ≠ n := fun hc => b (hc ▸ hD)
    simpa using this
  have hsub : ∀ e ∈ w.catalog.filter (fun e => e.1 != n), e ∈ w.catalog ∧ e.1 ≠ n := by
    intro e he
    obtain ⟨a, b⟩ := List.mem_filter.1 he
    exact ⟨a, by simpa using b⟩
  refine inv_goto h ht rfl ?_ ?_ (fun e he => h.lt e (hsub e he).1) (fun x e he => hseen e (h.sess x e he)) h.files ?_ ?_ ?_
    (by simp) ?_
  · exact h.names.sublist (List.Sublist.map _ List.filter_sublist)
  · exact h.tables.sublist (List.Sublist.map _ List.filter_sublist)
  · intro j th' hj hji
    have g := h.fine j th' hj
    refine ⟨fun e he => hseen e (g.seen e he), g.clean, g.found, g.both, g.wrote, g.same, ?_⟩
    intro u hu
    obtain ⟨g1, g2, g3, g4⟩ := g.made u hu
    exact ⟨g1, g2, fun e he => g3 e (hsub e he).1, g4⟩
  · refine ⟨by simp [Thread.knows], by simp, by simp, by simp, by simp, by simp, by simp⟩
  · simp [Thread.knows]
  · intro e he
    exact (h.held e (hsub e he).1).imp id
      (fun hd => dropping_other (w := { w with catalog := _ }) ht hn (hsub e he).2 hd)

/-! #### all steps -/

theorem inv_begin {R D own} {w : World} {i : Nat} {th : Thread} (h : Inv R D own w) (hr : Rules R D own w)
    (ht : w.threads[i]? = some th) (hs : th.stage = .ready) : Inv R D own (w.begin i th.session th.stmt) := by
  have he : th.stage ≠ .erased := by rw [hs]; simp
  have hf : ∀ b, th.stage ≠ .finished b := by rw [hs]; simp
  have fin : Inv R D own (w.goto i (.finished false)) := inv_plain _ h ht he hf (.inr (.inr ⟨_, rfl⟩))
  have named : ∀ u, w.uuid th.session th.stmt.name = some u → Inv R D own (w.goto i (.named u)) :=
    fun u hu => inv_named h ht hs hu
  have found : ∀ t l, w.look th.session th.stmt.name = some (t, l) → Inv R D own (w.goto i (.found t l)) :=
    fun t l hu => inv_found h ht hs hu
  rcases hst : th.stmt with ⟨n, k⟩ | ⟨b, n, q, k⟩ | n | n | n | ⟨n, m⟩ | n
  · rw [hst] at named
    simp only [World.begin]
    split
    · exact fin
    · exact named _ (by assumption)
  · rw [hst] at named found
    cases b
    · simp only [World.begin]
      split
      · exact fin
      · exact found _ _ (by assumption)
    · simp only [World.begin]
      split
      · exact fin
      · exact named _ (by assumption)
  · rw [hst] at found
    simp only [World.begin]
    split
    · exact fin
    · exact found _ _ (by assumption)
  · rw [hst] at found
    simp only [World.begin]
    split
    · exact fin
    · exact found _ _ (by assumption)
  · simp only [World.begin]
    split
    · exact inv_plain _ h ht he hf (.inr (.inl rfl))
    · next hl => exact inv_erase h hr ht hs hst (look_some hl).1
  · simp only [World.begin]
    split
    · next h2 => exact inv_rename h hr ht hs hst h2
    · exact fin
  · simp only [World.begin]
    exact inv_create h ht hs

theorem inv_step {R D own} {w : World} (i : Nat) (h : Inv R D own w) (hr : Rules R D own w) : Inv R D own (w.step i) := by
  unfold World.step
  split
  · exact h
  · next th ht =>
    have f := h.fine i th ht
    split
    · next hs => exact inv_list h ht hs
    · next hs => exact inv_register h hr ht hs
    · next hs => exact inv_begin h hr ht hs
    · next a l hs =>
      have hk : a < w.next := (f.seen (th.stmt.name, a) (by simp [Thread.knows, hs])).lt
      rcases hst : th.stmt with ⟨n, k⟩ | ⟨b, n, q, k⟩ | n | n | n | ⟨n, m⟩ | n <;> simp only [World.afterTable]
      · exact h
      · split
        · exact inv_plain _ h ht (by simp [hs]) (by simp [hs]) (.inr (.inr ⟨_, rfl⟩))
        · next hu => exact inv_both h hr ht hst (.inr ⟨⟨l, hs⟩, hu⟩)
      · have := inv_write (removes := l.live) (adds := []) h ht (by simp [hs]) (by simp [hs]) hk (by simp)
        have e : set w.dir a (w.dir a ++ []) = w.dir := by
          funext x
          unfold set
          split
          · next hx => simp [hx]
          · rfl
        rw [e] at this
        exact this
      · exact inv_vacuum h ht hs
      · exact h
      · exact h
      · exact h
    · next u hs =>
      have hk : u < w.next := (f.seen (th.stmt.name, u) (by simp [Thread.knows, hs])).lt
      rcases hst : th.stmt with ⟨n, k⟩ | ⟨b, n, q, k⟩ | n | n | n | ⟨n, m⟩ | n <;> simp only [World.afterName]
      · exact inv_write h ht (by simp [hs]) (by simp [hs]) hk (fun p hp => files_owner hp)
      · split
        · exact inv_plain _ h ht (by simp [hs]) (by simp [hs]) (.inr (.inr ⟨_, rfl⟩))
        · next hu => exact inv_both h hr ht hst (.inl ⟨hs, (look_some hu).1⟩)
      all_goals exact h
    · next a l u hs =>
      obtain ⟨hau, hlt⟩ := f.both a l u hs
      subst hau
      rcases hst : th.stmt with ⟨n, k⟩ | ⟨b, n, q, k⟩ | n | n | n | ⟨n, m⟩ | n <;> simp only [World.rewrite]
      · exact h
      · refine inv_write h ht (by simp [hs]) (by simp [hs]) hlt ?_
        intro p hp
        split at hp
        · simp at hp
        · exact files_owner hp
      all_goals exact h
    · next a r adds hs =>
      have fin : Inv R D own (w.goto i (.finished false)) :=
        inv_plain _ h ht (by simp [hs]) (by simp [hs]) (.inr (.inr ⟨_, rfl⟩))
      unfold World.commit
      split
      · exact fin
      · next l hl =>
        split
        · next hc => exact inv_commit h ht hs hl (by simpa using hc)
        · exact fin
    · next u hs =>
      rcases hst : th.stmt with ⟨n, k⟩ | ⟨b, n, q, k⟩ | n | n | n | ⟨n, m⟩ | n <;> simp only [World.enter]
      case create =>
        split
        · exact inv_plain _ h ht (by simp [hs]) (by simp [hs]) (.inr (.inr ⟨_, rfl⟩))
        · next hn => exact inv_enter h hr ht hs hn
      all_goals exact h
    · next hs =>
      rcases hst : th.stmt with ⟨n, k⟩ | ⟨b, n, q, k⟩ | n | n | n | ⟨n, m⟩ | n <;> simp only [World.forget]
      case drop =>
        split
        · next hn =>
          have := inv_forget (ok := false) h hr ht hst
          have e : w.catalog.filter (fun e => e.1 != n) = w.catalog := by
            rw [List.filter_eq_self]
            intro e he
            have : e.1 ≠ n := fun hc => find_none hn e.2 (hc ▸ he)
            simpa using this
          rw [e] at this
          exact this
        · exact inv_forget h hr ht hst
      all_goals exact h
    · exact h

theorem inv_fail {R D own} {w : World} (i : Nat) (h : Inv R D own w) : Inv R D own (w.fail i) := by
  unfold World.fail
  split
  · exact h
  · next th ht =>
    split
    · exact h
    · next hs _ => exact inv_plain _ h ht (by simp [hs]) (by simp [hs]) (.inr (.inl rfl))
    · exact h
    · exact inv_plain _ h ht (by simp_all) (by simp_all) (.inr (.inr ⟨_, rfl⟩))

/-! #### statements stay what they are -/

theorem same_goto {ss} {w : World} (i : Nat) (s : Stage) (h : Same ss w) : Same ss (w.goto i s) := by
  unfold Same World.goto at *
  rw [← h]
  apply List.ext_getElem?
  intro j
  simp only [List.getElem?_map, List.getElem?_modify]
  by_cases hj : i = j
  · subst hj
    cases w.threads[i]? <;> simp
  · simp [hj]

theorem same_step {ss} {w : World} (i : Nat) (h : Same ss w) : Same ss (w.step i) := by
  have g : ∀ (w' : World) s, w'.threads = w.threads → Same ss (w'.goto i s) :=
    fun w' s e => same_goto i s (by unfold Same at *; rw [e]; exact h)
  unfold World.step World.begin World.afterName World.afterTable World.rewrite World.commit World.enter World.forget
  repeat' split
  all_goals first | exact h | exact g _ _ rfl

theorem same_fail {ss} {w : World} (i : Nat) (h : Same ss w) : Same ss (w.fail i) := by
  unfold World.fail
  repeat' split
  all_goals first | exact h | exact same_goto i _ h

theorem same_get {ss} {w : World} (h : Same ss w) {i : Nat} {th : Thread} (ht : w.threads[i]? = some th) :
    ss[i]? = some (th.stmt, th.session) := by
  unfold Same at h
  rw [← h, List.getElem?_map, ht]
  rfl

/-- What the property assumes of the statements: no RENAME takes away a name that is also dropped, and an UPDATE or DELETE
has a session of its own or acts on a name that is neither renamed nor dropped. -/
structure Calm (ss : List (Stmt × Nat)) : Prop where
  drop : ∀ n, Dropped ss n → ¬ Renamed ss n
  modify : ∀ (i : Nat) b n q k s, ss[i]? = some (.modify b n q k, s) → Own ss i ∨ (¬ Renamed ss n ∧ ¬ Dropped ss n)

theorem rules_of_same {ss} {w : World} (hc : Calm ss) (h : Same ss w) :
    Rules (Renamed ss) (Dropped ss) (Own ss) w := by
  refine ⟨?_, ?_, hc.drop, ?_, ?_⟩
  · intro i th n m ht hn
    have := same_get h ht
    rw [hn] at this
    exact ⟨m, _, List.mem_of_getElem? this⟩
  · intro i th n ht hn
    have := same_get h ht
    rw [hn] at this
    exact ⟨_, List.mem_of_getElem? this⟩
  · intro i th b n q k ht hn
    have := same_get h ht
    rw [hn] at this
    exact hc.modify i b n q k _ this
  · intro i j th th' ho ht ht' hji
    exact ho j _ _ (same_get h ht) (same_get h ht') hji

theorem inv_exec {ss} (hc : Calm ss) (es : List Ev) (w : World) (hs : Same ss w)
    (h : Inv (Renamed ss) (Dropped ss) (Own ss) w) : Inv (Renamed ss) (Dropped ss) (Own ss) (w.exec es) := by
  induction es generalizing w with
  | nil => exact h
  | cons e es ih =>
    cases e with
    | run i => exact ih _ (same_step i hs) (inv_step i h (rules_of_same hc hs))
    | fail i => exact ih _ (same_fail i hs) (inv_fail i h)

theorem inv_init {R D own} {w : World} (h : Sound w) (ss : List (Stmt × Nat)) : Inv R D own (w.admit ss) := by
  have hst : ∀ (i : Nat) th, (w.admit ss).threads[i]? = some th → th.stage = .start := by
    intro i th hi
    simp only [World.admit, List.getElem?_map, Option.map_eq_some_iff] at hi
    obtain ⟨a, _, rfl⟩ := hi
    rfl
  refine ⟨h.names, h.tables, fun e he => (h.listed e he).2, ?_, h.files, ?_, ?_, fun e he => .inl (h.listed e he).1⟩
  · intro s e he
    rw [show (w.admit ss).session s = [] from h.sessions s] at he
    simp at he
  · intro i th hi
    have := hst i th hi
    refine ⟨by simp [Thread.knows, this], fun _ t l hl k => h.new t l hl i k, ?_, ?_, ?_, ?_, ?_⟩ <;> simp [this]
  · intro i j th th' u hi _ hu
    rw [hst i th hi] at hu
    cases hu

theorem same_admit (w : World) (ss : List (Stmt × Nat)) : Same ss (w.admit ss) := by
  unfold Same World.admit
  simp [List.map_map, Function.comp_def]

/-! ### the property -/

/-- At every moment of every schedule, a table in the catalog can be read, unless a DROP TABLE of its name has deleted files
and is about to delete the entry - provided that no dropped name is taken away by RENAME, and that each UPDATE or DELETE has
a session of its own or acts on a name that is neither renamed nor dropped. -/
theorem C129_partial (w : World) (h : Sound w) (ss : List (Stmt × Nat)) (hc : Calm ss) (es : List Ev) (n : String) (t : Table)
    (hm : (n, t) ∈ ((w.admit ss).exec es).catalog) :
    Readable ((w.admit ss).exec es) t ∨ Dropping ((w.admit ss).exec es) n := by
  have hi := inv_exec hc es _ (same_admit w ss) (inv_init h ss)
  rcases hi.held _ hm with h1 | h1
  · obtain ⟨l, hl⟩ := Option.ne_none_iff_exists'.1 h1
    exact .inl ⟨l, hl, (hi.files t l hl).1⟩
  · exact .inr h1

/-- In particular when all statements have ended. -/
theorem C129_end (w : World) (h : Sound w) (ss : List (Stmt × Nat)) (hc : Calm ss) (es : List Ev)
    (hend : ∀ th ∈ ((w.admit ss).exec es).threads, ∃ ok, th.stage = .finished ok) (n : String) (t : Table)
    (hm : (n, t) ∈ ((w.admit ss).exec es).catalog) : Readable ((w.admit ss).exec es) t := by
  rcases C129_partial w h ss hc es n t hm with h1 | ⟨th, h1, _, h2⟩
  · exact h1
  · obtain ⟨ok, h3⟩ := hend th h1
    rw [h2] at h3
    cases h3

/-! ### names -/

theorem free_iff {c : Names} {n : String} : c.find n = none ↔ ∀ e ∈ c, e.1 ≠ n := by
  simp [Names.find]

theorem taken_of {c : Names} {n : String} {t : Table} (h : c.find n = some t) : ∃ e ∈ c, e.1 = n := by
  simp only [Names.find, Option.map_eq_some_iff] at h
  obtain ⟨e, he, _⟩ := h
  exact ⟨e, List.mem_of_find?_eq_some he, by simpa using List.find?_some he⟩

/-- What a CREATE reports at its last step: success if and only if the name is free in the catalog at that moment, and
then the table is entered; otherwise the catalog stays. -/
theorem C129_create (w : World) (i : Nat) (th : Thread) (h : w.threads[i]? = some th) (n : String) (u : Table)
    (hs : th.stage = .made u) (hst : th.stmt = .create n) :
    ((∀ e ∈ w.catalog, e.1 ≠ n) → (w.step i).catalog = w.catalog ++ [(n, u)] ∧
      (w.step i).threads[i]? = some { th with stage := .finished true }) ∧
    ((∃ e ∈ w.catalog, e.1 = n) → (w.step i).catalog = w.catalog ∧
      (w.step i).threads[i]? = some { th with stage := .finished false }) := by
  have e : w.step i = w.enter i th.session u (.create n) := by simp only [World.step, h, hs, hst]
  rw [e]
  refine ⟨fun hf => ?_, fun hf => ?_⟩
  · simp only [World.enter, free_iff.2 hf]
    exact ⟨rfl, by simp [World.goto, h]⟩
  · cases hx : w.catalog.find n with
    | none => obtain ⟨e, he, hen⟩ := hf; exact absurd hen (free_iff.1 hx e he)
    | some t =>
      simp only [World.enter, hx]
      exact ⟨rfl, by simp [World.goto, h]⟩

/-- What a DROP reports when it deletes the entry: success if and only if there is one of that name, and then no entry
of that name is left, and all others are. -/
theorem C129_drop (w : World) (i : Nat) (th : Thread) (h : w.threads[i]? = some th) (n : String)
    (hs : th.stage = .erased) (hst : th.stmt = .drop n) :
    (∀ e, e ∈ (w.step i).catalog ↔ e ∈ w.catalog ∧ e.1 ≠ n) ∧
    ((∃ e ∈ w.catalog, e.1 = n) → (w.step i).threads[i]? = some { th with stage := .finished true }) ∧
    ((∀ e ∈ w.catalog, e.1 ≠ n) → (w.step i).threads[i]? = some { th with stage := .finished false }) := by
  have e : w.step i = w.forget i (.drop n) := by simp only [World.step, h, hs, hst]
  rw [e]
  cases hx : w.catalog.find n with
  | none =>
    have hf := free_iff.1 hx
    simp only [World.forget, hx]
    refine ⟨fun e => ⟨fun he => ⟨he, hf e he⟩, fun he => he.1⟩, fun ⟨e, he, hen⟩ => absurd hen (hf e he), fun _ => ?_⟩
    simp [World.goto, h]
  | some t =>
    obtain ⟨e0, he0, hen⟩ := taken_of hx
    simp only [World.forget, hx]
    refine ⟨fun e => ?_, fun _ => ?_, fun hf => absurd hen (hf e0 he0)⟩
    · simp [World.goto]
    · simp [World.goto, h]

/-- What a RENAME reports: success if and only if the old name is in the catalog and the new one is free, and then the
tables of the old name have the new one; otherwise the catalog stays. -/
theorem C129_rename (w : World) (i : Nat) (th : Thread) (h : w.threads[i]? = some th) (n m : String)
    (hs : th.stage = .ready) (hst : th.stmt = .rename n m) :
    ((∃ e ∈ w.catalog, e.1 = n) ∧ (∀ e ∈ w.catalog, e.1 ≠ m) →
      (∀ x t, (x, t) ∈ (w.step i).catalog ↔ (x, t) ∈ w.catalog ∧ x ≠ n ∨ x = m ∧ (n, t) ∈ w.catalog) ∧
      (w.step i).threads[i]? = some { th with stage := .finished true }) ∧
    (¬ ((∃ e ∈ w.catalog, e.1 = n) ∧ (∀ e ∈ w.catalog, e.1 ≠ m)) → (w.step i).catalog = w.catalog ∧
      (w.step i).threads[i]? = some { th with stage := .finished false }) := by
  have e : w.step i = w.begin i th.session (.rename n m) := by simp only [World.step, h, hs, hst]
  rw [e]
  refine ⟨fun ⟨⟨e0, he0, hen⟩, hf⟩ => ?_, fun hno => ?_⟩
  · cases hx : w.catalog.find n with
    | none => exact absurd hen (free_iff.1 hx e0 he0)
    | some t0 =>
      simp only [World.begin, hx, free_iff.2 hf]
      refine ⟨fun x t => ?_, by simp [World.goto, h]⟩
      show (x, t) ∈ w.catalog.map _ ↔ _
      rw [List.mem_map]
      constructor
      · rintro ⟨⟨a, b⟩, hab, he⟩
        by_cases han : a = n
        · subst han
          simp only [BEq.rfl, if_true, Prod.mk.injEq] at he
          obtain ⟨rfl, rfl⟩ := he
          exact Or.inr ⟨rfl, hab⟩
        · have hbe : (a == n) = false := by simpa using han
          simp only [hbe, Bool.false_eq_true, if_false, Prod.mk.injEq] at he
          obtain ⟨rfl, rfl⟩ := he
          exact Or.inl ⟨hab, han⟩
      · rintro (⟨hab, han⟩ | ⟨rfl, hab⟩)
        · exact ⟨_, hab, by simp [han]⟩
        · exact ⟨_, hab, by simp⟩
  · cases hx : w.catalog.find n with
    | none =>
      simp only [World.begin, hx]
      exact ⟨rfl, by simp [World.goto, h]⟩
    | some t0 =>
      cases hy : w.catalog.find m with
      | none => exact absurd ⟨taken_of hx, free_iff.1 hy⟩ hno
      | some t1 =>
        simp only [World.begin, hx, hy]
        exact ⟨rfl, by simp [World.goto, h]⟩

theorem step_catalog (w : World) (i : Nat) :
    (w.step i).catalog = w.catalog ∨
    (∃ n u, (∀ e ∈ w.catalog, e.1 ≠ n) ∧ (w.step i).catalog = w.catalog ++ [(n, u)]) ∨
    (∃ n, (w.step i).catalog = w.catalog.filter fun e => e.1 != n) ∨
    (∃ n m, (∀ e ∈ w.catalog, e.1 ≠ m) ∧
      (w.step i).catalog = w.catalog.map fun (e : String × Table) => if e.1 == n then (m, e.2) else e) := by
  unfold World.step
  split
  · exact Or.inl rfl
  · rename_i t _
    split
    · exact Or.inl rfl
    · exact Or.inl rfl
    · unfold World.begin
      split <;> (try split) <;> try exact Or.inl rfl
      rename_i n m _ _ _ hm
      exact Or.inr (Or.inr (Or.inr ⟨_, _, free_iff.1 hm, rfl⟩))
    · unfold World.afterTable
      split <;> (try split) <;> exact Or.inl rfl
    · unfold World.afterName
      split <;> (try split) <;> exact Or.inl rfl
    · unfold World.rewrite
      split <;> (try split) <;> exact Or.inl rfl
    · unfold World.commit
      split <;> (try split) <;> exact Or.inl rfl
    · unfold World.enter
      split <;> (try split) <;> try exact Or.inl rfl
      rename_i hm
      exact Or.inr (Or.inl ⟨_, _, free_iff.1 hm, rfl⟩)
    · unfold World.forget
      split <;> (try split) <;> try exact Or.inl rfl
      exact Or.inr (Or.inr (Or.inl ⟨_, rfl⟩))
    · exact Or.inl rfl

theorem fail_catalog (w : World) (i : Nat) : (w.fail i).catalog = w.catalog := by
  unfold World.fail
  split
  · rfl
  · split <;> (try split) <;> rfl

theorem step_names (w : World) (i : Nat) (h : w.catalog.Pairwise fun a b => a.1 ≠ b.1) :
    (w.step i).catalog.Pairwise fun a b => a.1 ≠ b.1 := by
  rcases step_catalog w i with e | ⟨n, u, hf, e⟩ | ⟨n, e⟩ | ⟨n, m, hf, e⟩
  · rw [e]; exact h
  · rw [e, List.pairwise_append]
    refine ⟨h, List.pairwise_singleton _ _, fun a ha b hb => ?_⟩
    rw [List.mem_singleton] at hb
    subst hb
    exact hf a ha
  · rw [e]; exact h.filter _
  · rw [e, List.pairwise_map]
    refine h.imp_of_mem fun {a b} ha hb hab => ?_
    by_cases h1 : a.1 = n
    · by_cases h2 : b.1 = n
      · exact absurd (h1.trans h2.symm) hab
      · simp only [h1, BEq.rfl, if_true, beq_eq_false_iff_ne.2 h2, Bool.false_eq_true, if_false]
        exact fun x => hf b hb x.symm
    · by_cases h2 : b.1 = n
      · simp only [h2, BEq.rfl, if_true, beq_eq_false_iff_ne.2 h1, Bool.false_eq_true, if_false]
        exact hf a ha
      · simp only [beq_eq_false_iff_ne.2 h1, beq_eq_false_iff_ne.2 h2, Bool.false_eq_true, if_false]
        exact hab

/-- Whatever statements run at the same time, in whatever sessions, and whichever of them fail: no two tables in the
catalog ever have the same name. -/
theorem C129_names (w : World) (h : w.catalog.Pairwise fun a b => a.1 ≠ b.1) (ss : List (Stmt × Nat)) (es : List Ev) :
    ((w.admit ss).exec es).catalog.Pairwise fun a b => a.1 ≠ b.1 := by
  have go : ∀ (es : List Ev) (w : World), (w.catalog.Pairwise fun a b => a.1 ≠ b.1) →
      (w.exec es).catalog.Pairwise fun a b => a.1 ≠ b.1 := by
    intro es
    induction es with
    | nil => exact fun _ h => h
    | cons e es ih =>
      intro w h
      refine ih (w.apply e) ?_
      cases e with
      | run i => exact step_names w i h
      | fail i => show (w.fail i).catalog.Pairwise _; rw [fail_catalog]; exact h
  exact go es _ h

/-- What an UPDATE or DELETE does that has loaded the log `l` of table `t` at `w` and commits later, at `w'`: if all the
files it rewrites are still part of the table, exactly these are replaced by the new ones, which exist only if there was
anything to rewrite; otherwise it fails and the log stays. -/
theorem C129_modify (w w' : World) (i : Nat) (th : Thread) (h : w.threads[i]? = some th) (b : Bool) (n : String)
    (pick : Path → Bool) (k : Nat) (t u : Table) (l l' : Log) (hs : th.stage = .both t l u)
    (hst : th.stmt = .modify b n pick k) (hsame : w'.threads[i]? = (w.step i).threads[i]?) (hl : w'.log t = some l') :
    ((∀ p ∈ l.live, pick p = true → p ∈ l'.live) →
      (w'.step i).threads[i]? = some { th with stage := .finished true } ∧
      ∃ l'', (w'.step i).log t = some l'' ∧ ∀ p, p ∈ l''.live ↔
        p ∈ l'.live ∧ ¬ (p ∈ l.live ∧ pick p = true) ∨ p ∈ files i k ∧ ∃ q ∈ l.live, pick q = true) ∧
    ((∃ p ∈ l.live, pick p = true ∧ p ∉ l'.live) →
      (w'.step i).threads[i]? = some { th with stage := .finished false } ∧ (w'.step i).log t = some l') := by
  have e : w.step i = w.rewrite i t l u (.modify b n pick k) := by simp only [World.step, h, hs, hst]
  have h' : w'.threads[i]? = some { th with
      stage := .wrote t (l.live.filter pick) (if (l.live.filter pick).isEmpty then [] else files i k) } := by
    rw [hsame, e]
    simp [World.rewrite, World.goto, h]
  have e' : w'.step i =
      w'.commit i t (l.live.filter pick) (if (l.live.filter pick).isEmpty then [] else files i k) := by
    simp only [World.step, h']
  rw [e']
  refine ⟨fun hall => ?_, fun ⟨p, hp, hpick, hno⟩ => ?_⟩
  · have hc : ((l.live.filter pick).all fun p => l'.live.contains p) = true := by
      rw [List.all_eq_true]
      intro p hp
      rw [List.mem_filter] at hp
      exact List.contains_iff_mem.2 (hall p hp.1 hp.2)
    simp only [World.commit, hl, hc, if_true]
    refine ⟨by simp [World.goto, h'], _, by simp only [World.goto, set, if_true]; rfl, fun p => ?_⟩
    simp only [List.mem_append, List.mem_filter]
    refine or_congr ?_ ?_
    · by_cases hpl : p ∈ l.live <;> simp [List.mem_filter, hpl]
    · by_cases hx : ∃ q ∈ l.live, pick q = true
      · obtain ⟨q, hq, hqp⟩ := hx
        have : (l.live.filter pick).isEmpty = false := by
          cases hf : l.live.filter pick with
          | nil => exact absurd (List.mem_filter.2 ⟨hq, hqp⟩) (by rw [hf]; exact List.not_mem_nil)
          | cons _ _ => rfl
        simp only [this, Bool.false_eq_true, if_false]
        exact ⟨fun hp => ⟨hp, q, hq, hqp⟩, fun hp => hp.1⟩
      · have : (l.live.filter pick).isEmpty = true := by
          rw [List.isEmpty_iff, List.filter_eq_nil_iff]
          exact fun q hq hqp => hx ⟨q, hq, hqp⟩
        simp only [this, if_true]
        exact ⟨fun hp => absurd hp List.not_mem_nil, fun hp => absurd hp.2 hx⟩
  · have hc : ((l.live.filter pick).all fun p => l'.live.contains p) = false := by
      rw [List.all_eq_false]
      exact ⟨p, List.mem_filter.2 ⟨hp, hpick⟩, by simpa using hno⟩
    simp only [World.commit, hl, hc, Bool.false_eq_true, if_false]
    exact ⟨by simp [World.goto, h'], hl⟩

/-- A statement that fails has changed nothing with the operation that failed and does not report success. -/
theorem C129_failed (w : World) (i : Nat) (th : Thread) (h : w.threads[i]? = some th) :
    (w.fail i).catalog = w.catalog ∧ (w.fail i).log = w.log ∧ (w.fail i).dir = w.dir ∧
      ((w.fail i).threads[i]? = some { th with stage := .finished true } → th.stage = .finished true) := by
  obtain ⟨stmt, session, stage⟩ := th
  simp only [World.fail, h]
  split
  · refine ⟨rfl, rfl, rfl, fun hx => ?_⟩
    rw [h] at hx
    simp at hx
  · refine ⟨rfl, rfl, rfl, fun hx => ?_⟩
    simp [World.goto, h] at hx
  · refine ⟨rfl, rfl, rfl, fun hx => ?_⟩
    rw [h] at hx
    simpa using hx
  · refine ⟨rfl, rfl, rfl, fun hx => ?_⟩
    simp [World.goto, h] at hx

/-- INSERT, TRUNCATE, VACUUM, CREATE and RENAME never make a table unreadable, in whatever sessions they run. -/
theorem C129_safe (w : World) (h : Sound w) (ss : List (Stmt × Nat))
    (hss : ∀ s ∈ ss, (∃ n k, s.1 = .insert n k) ∨ (∃ n, s.1 = .truncate n) ∨ (∃ n, s.1 = .vacuum n) ∨
      (∃ n, s.1 = .create n) ∨ ∃ n m, s.1 = .rename n m)
    (es : List Ev) (n : String) (t : Table) (hm : (n, t) ∈ ((w.admit ss).exec es).catalog) :
    Readable ((w.admit ss).exec es) t := by
  have nd : ∀ n, ¬ Dropped ss n := by
    rintro n ⟨s, hs⟩
    rcases hss _ hs with ⟨_, _, e⟩ | ⟨_, e⟩ | ⟨_, e⟩ | ⟨_, e⟩ | ⟨_, _, e⟩ <;> cases e
  have hc : Calm ss := by
    refine ⟨fun n hn => absurd hn (nd n), ?_⟩
    intro i b n q k s hi
    rcases hss _ (List.mem_of_getElem? hi) with ⟨_, _, e⟩ | ⟨_, e⟩ | ⟨_, e⟩ | ⟨_, e⟩ | ⟨_, _, e⟩ <;> cases e
  rcases C129_partial w h ss hc es n t hm with h1 | ⟨th, h1, h2, _⟩
  · exact h1
  · have hs : Same ss ((w.admit ss).exec es) := by
      have : ∀ (es : List Ev) w', Same ss w' → Same ss (w'.exec es) := by
        intro es
        induction es with
        | nil => exact fun _ h => h
        | cons e es ih =>
          intro w' hw
          cases e with
          | run i => exact ih _ (same_step i hw)
          | fail i => exact ih _ (same_fail i hw)
      exact this es _ (same_admit w ss)
    obtain ⟨j, hj⟩ := List.mem_iff_getElem?.1 h1
    have := same_get hs hj
    rw [h2] at this
    exact absurd ⟨_, List.mem_of_getElem? this⟩ (nd n)

/-! ### concrete runs -/

theorem not_readable {w : World} {t : Table} (h : (w.log t).all (fun l => l.live.any fun p => !(w.dir t).contains p) = true) :
    ¬ Readable w t := by
  rintro ⟨l, hl, hp⟩
  rw [hl] at h
  simp only [Option.all_some, List.any_eq_true, Bool.not_eq_true', List.contains_eq_mem] at h
  obtain ⟨p, h1, h2⟩ := h
  simp [hp p h1] at h2

/-- Two tables `a` and `b` with a file each. -/
def two : World where
  catalog := [("a", 0), ("b", 1)]
  log := fun t => if t = 0 then some ⟨[(none, 0)], []⟩ else if t = 1 then some ⟨[(none, 1)], []⟩ else none
  dir := fun t => if t = 0 then [(none, 0)] else if t = 1 then [(none, 1)] else []
  session := fun _ => []
  threads := []
  next := 2

theorem two_sound : Sound two := by
  refine ⟨by decide, by decide, by decide, ?_, ?_, fun _ => rfl⟩
  all_goals
    intro t l hl
    simp only [two] at hl ⊢
    split at hl
    · cases hl
      simp [*]
    · split at hl
      · cases hl
        simp [*]
      · cases hl

def all : Path → Bool := fun _ => true

def runs (i k : Nat) : List Ev := List.replicate k (.run i)

/-- UPDATE and DELETE in sessions of their own while the table is renamed, `b` is dropped and `d` created. -/
def busy : List (Stmt × Nat) :=
  [(.modify false "a" all 1, 0), (.rename "a" "c", 1), (.drop "b", 2), (.create "d", 3), (.modify true "b" all 1, 4)]

theorem busy_calm : Calm busy := by
  refine ⟨?_, ?_⟩
  · rintro n ⟨s, hs⟩ ⟨m, s', hr⟩
    simp only [busy, List.mem_cons, Prod.mk.injEq, reduceCtorEq, Stmt.drop.injEq, Stmt.rename.injEq, false_and, false_or,
      List.not_mem_nil, or_false] at hs hr
    rw [hs.1] at hr
    exact absurd hr.1.1 (by decide)
  · intro i b n q k s hi
    left
    intro j x y hx hy hji
    have hi5 : i < 5 := (List.getElem?_eq_some_iff.1 hx).1
    have hj5 : j < 5 := (List.getElem?_eq_some_iff.1 hy).1
    have key : ∀ i < 5, ∀ j < 5, j ≠ i → (busy[j]?).map (·.2) ≠ (busy[i]?).map (·.2) := by decide
    intro he
    apply key i hi5 j hj5 hji
    rw [hx, hy]
    simp [he]

/-- The run of the four statements, interleaved: UPDATE commits to the table that is now called `c`, DELETE fails because its
table is gone. -/
example :
    let w := (two.admit busy).exec (runs 0 3 ++ runs 1 3 ++ runs 4 4 ++ runs 2 3 ++ runs 0 3 ++ runs 3 3 ++ runs 4 2 ++
      runs 2 1 ++ runs 3 1)
    w.catalog = [("c", 0), ("d", 2)] ∧ w.log 0 = some ⟨[(some 0, 0)], [(none, 0)]⟩ ∧ w.dir 0 = [(none, 0), (some 0, 0)] ∧
      w.log 1 = none := by decide +kernel

example : Readable ((two.admit busy).exec (runs 0 3 ++ runs 1 3 ++ runs 0 3)) 0 := by
  rcases C129_partial two two_sound busy busy_calm (runs 0 3 ++ runs 1 3 ++ runs 0 3) "c" 0 (by decide +kernel) with h | h
  · exact h
  · obtain ⟨th, h1, h2, h3⟩ := h
    exact absurd h3 (by
      have : ∀ th ∈ ((two.admit busy).exec (runs 0 3 ++ runs 1 3 ++ runs 0 3)).threads, th.stage ≠ .erased := by
        intro th hth
        have e : ((two.admit busy).exec (runs 0 3 ++ runs 1 3 ++ runs 0 3)).threads =
            [⟨.modify false "a" all 1, 0, .finished true⟩, ⟨.rename "a" "c", 1, .finished true⟩, ⟨.drop "b", 2, .start⟩,
              ⟨.create "d", 3, .start⟩, ⟨.modify true "b" all 1, 4, .start⟩] := rfl
        rw [e] at hth
        simp only [List.mem_cons, List.not_mem_nil, or_false] at hth
        rcases hth with rfl | rfl | rfl | rfl | rfl <;> simp
      exact this th h1)

/-- INSERT and RENAME in one session: the row goes to the table that had the name. -/
example :
    let ss := [(Stmt.insert "a" 1, 0), (.rename "a" "c", 0), (.rename "b" "a", 0), (.vacuum "c", 0)]
    let w := (two.admit ss).exec (runs 0 3 ++ runs 1 3 ++ runs 2 3 ++ runs 0 2 ++ runs 3 4)
    w.catalog = [("c", 0), ("a", 1)] ∧ w.log 0 = some ⟨[(none, 0), (some 0, 0)], []⟩ ∧ w.dir 0 = [(none, 0), (some 0, 0)] := by
  decide +kernel

/-- an INSERT, and a DELETE that only rewrites the file of the INSERT -/
example :
    let w := (two.admit [(.insert "a" 1, 0), (.modify true "a" (fun p => p.1 == some 0) 1, 1)]).exec (runs 0 5 ++ runs 1 6)
    w.log 0 = some ⟨[(none, 0), (some 1, 0)], [(some 0, 0)]⟩ := by decide +kernel

/-- two CREATEs of one name at the same time: both make a directory, and the second to reach the metastore is refused -/
example :
    let w := (two.admit [(.create "d", 0), (.create "d", 1)]).exec (runs 0 3 ++ runs 1 4 ++ runs 0 1)
    w.catalog = [("a", 0), ("b", 1), ("d", 3)] ∧
      w.threads = [⟨.create "d", 0, .finished false⟩, ⟨.create "d", 1, .finished true⟩] := ⟨by decide +kernel, rfl⟩

/-- **Violated**: all statements in the session of the server.  The table of an UPDATE is renamed and another one gets its
name between the two lookups: the new rows are written to the directory of the other table, and the log of the first refers
to a file it does not have.  The UPDATE succeeds; the old rows are no longer part of the table and it can not be read. -/
theorem C129_violated_update :
    let ss := [(Stmt.modify false "a" all 1, 0), (.rename "a" "c", 0), (.rename "b" "a", 0), (.insert "b" 1, 0)]
    let w := (two.admit ss).exec (runs 0 3 ++ runs 1 3 ++ runs 2 3 ++ runs 3 2 ++ runs 0 3)
    w.catalog = [("c", 0), ("a", 1)] ∧ w.log 0 = some ⟨[(some 0, 0)], [(none, 0)]⟩ ∧
      w.dir 0 = [(none, 0)] ∧ w.dir 1 = [(none, 1), (some 0, 0)] ∧ ¬ Readable w 0 := by
  refine ⟨by decide +kernel, by decide +kernel, by decide +kernel, by decide +kernel, not_readable (by decide +kernel)⟩

/-- **Violated**, for DELETE, which looks up the directory first. -/
theorem C129_violated_delete :
    let ss := [(Stmt.modify true "a" all 1, 0), (.rename "a" "c", 0), (.rename "b" "a", 0), (.insert "b" 1, 0)]
    let w := (two.admit ss).exec (runs 0 3 ++ runs 1 3 ++ runs 2 3 ++ runs 3 2 ++ runs 0 3)
    w.catalog = [("c", 0), ("a", 1)] ∧ w.log 1 = some ⟨[(some 0, 0)], [(none, 1)]⟩ ∧
      w.dir 1 = [(none, 1)] ∧ ¬ Readable w 1 := by
  refine ⟨by decide +kernel, by decide +kernel, by decide +kernel, not_readable (by decide +kernel)⟩

/-- **Violated**, even with sessions of their own: between the reading of the catalog and the end of `DROP TABLE a` the table is
renamed and another one gets its name.  The files of the renamed table are deleted and the entry of the other: one table is
listed without data, the data of the other one are in no catalog.  The DROP succeeds. -/
theorem C129_violated_drop :
    let ss := [(Stmt.drop "a", 0), (.rename "a" "c", 1), (.rename "b" "a", 2)]
    let w := (two.admit ss).exec (runs 0 2 ++ runs 1 3 ++ runs 2 3 ++ runs 0 2)
    w.catalog = [("c", 0)] ∧ w.log 0 = none ∧ ¬ Readable w 0 ∧ w.log 1 = some ⟨[(none, 1)], []⟩ ∧
      w.threads[0]?.map (·.stage matches .finished true) = some true := by
  refine ⟨by decide +kernel, by decide +kernel, ?_, by decide +kernel, by decide +kernel⟩
  rintro ⟨l, hl, _⟩
  have : ((two.admit [(Stmt.drop "a", 0), (.rename "a" "c", 1), (.rename "b" "a", 2)]).exec
    (runs 0 2 ++ runs 1 3 ++ runs 2 3 ++ runs 0 2)).log 0 = none := by decide +kernel
  rw [this] at hl
  cases hl

/-- **Violated** without any RENAME: in one session, late registrations of old catalogs make a DROP forget a table without
deleting its files (table 2), and an UPDATE of the table that has the name later write there. -/
theorem C129_violated_stale :
    let ss := [(Stmt.vacuum "a", 0), (.drop "a", 0), (.create "a", 0), (.vacuum "a", 0), (.drop "a", 0), (.create "a", 0),
      (.insert "a" 1, 0), (.modify false "a" all 1, 0)]
    let w := (two.admit ss).exec (runs 0 1 ++ runs 1 4 ++ runs 2 4 ++ runs 3 1 ++ runs 4 2 ++ runs 0 1 ++ runs 4 2 ++ runs 5 4 ++
      runs 6 5 ++ runs 7 3 ++ runs 3 1 ++ runs 7 3)
    w.catalog = [("b", 1), ("a", 3)] ∧ w.log 3 = some ⟨[(some 7, 0)], [(some 6, 0)]⟩ ∧ w.dir 3 = [(some 6, 0)] ∧
      w.dir 2 = [(some 7, 0)] ∧ ¬ Readable w 3 := by
  refine ⟨by decide +kernel, by decide +kernel, by decide +kernel, by decide +kernel, not_readable (by decide +kernel)⟩

end Seafowl.Lookups
