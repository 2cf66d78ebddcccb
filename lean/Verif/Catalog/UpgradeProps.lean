import Verif.Catalog.Upgrade

/-!
# C125: a catalog survives the start of a newer version
-/
namespace Seafowl.Upgrade

/-! ### specification -/

/-- What a type in the catalog says: the data type, and whether NULL is allowed. -/
def says : Typ → Option (String × Bool)
  | .bare t => some (t, true)
  | .old _ t nl => some (t, nl)
  | .field _ t nl => some (t, nl)
  | .junk _ => none

/-- What users have in the catalog: databases, schemas, functions, tables with their versions and columns. -/
structure Content where
  dbs : List (Nat × String)
  colls : List (Nat × Nat × String)
  fns : List (Nat × Nat × String)
  tabs : List (Nat × Nat × String)
  vers : List (Nat × Nat × Int)
  cols : List (Nat × String × Option (String × Bool))
  deriving DecidableEq, Repr

def content (s : St) : Content where
  dbs := s.dbs
  colls := s.colls
  fns := s.fns
  tabs := s.tabs.map (fun t => (t.id, t.coll, t.name))
  vers := s.vers.map (fun v => (v.id, v.table, v.time))
  cols := s.cols.map (fun c => (c.ver, c.name, says c.typ))

/-- A catalog as some version left it: a fresh one is empty, the first version stored bare types. -/
structure Left (s : St) : Prop where
  known : s.level ≤ 4
  fresh : s.level = 0 → s.cols = []
  first : s.level = 1 → ∀ c ∈ s.cols, ∃ t, c.typ = .bare t
  last : s.level = 4 → s.parts = [] ∧ ∀ t ∈ s.tabs, t.legacy = false

/-- What belongs to Delta tables. -/
def delta (s : St) : List (Nat × Nat) × List (Nat × Int) × List (String × Nat) :=
  (s.tabs.map (fun t => (t.id, t.uuid)), s.vers.map (fun v => (v.id, v.version)), s.dropped)

/-! ### lemmas -/

theorem says_convert (c : Col) : says (convertCol c).typ = says c.typ ∧ (convertCol c).ver = c.ver ∧
    (convertCol c).name = c.name ∧ (convertCol c).id = c.id := by
  unfold convertCol
  split
  · next h => simp [says, h]
  · simp

theorem content_convert (ok : Nat → Bool) (s : St) : content (convert ok s) = content s := by
  have : (convert ok s).cols.map (fun c => (c.ver, c.name, says c.typ)) =
      s.cols.map (fun c => (c.ver, c.name, says c.typ)) := by
    simp only [convert, List.map_map]
    apply List.map_congr_left
    intro c _
    simp only [Function.comp_def]
    split
    · obtain ⟨h1, h2, h3, _⟩ := says_convert c
      rw [h1, h2, h3]
    · rfl
  unfold content
  rw [this]
  rfl

theorem left_convert {s : St} (h : Left s) (ok : Nat → Bool) : Left (convert ok s) where
  known := h.known
  fresh := fun h0 => by simp [convert, h.fresh h0]
  first := fun h1 c hc => by
    simp only [convert, List.mem_map] at hc
    obtain ⟨d, hd, rfl⟩ := hc
    obtain ⟨t, ht⟩ := h.first h1 d hd
    refine ⟨t, ?_⟩
    split
    · simp [convertCol, ht]
    · exact ht
  last := h.last

theorem wrapAll_bare {cs : List Col} (h : ∀ c ∈ cs, ∃ t, c.typ = .bare t) :
    ∃ ds, wrapAll cs = some ds ∧
      ds.map (fun c => (c.ver, c.name, says c.typ)) = cs.map (fun c => (c.ver, c.name, says c.typ)) := by
  induction cs with
  | nil => exact ⟨[], rfl, rfl⟩
  | cons c cs ih =>
    obtain ⟨ds, h1, h2⟩ := ih (fun d hd => h d (by simp [hd]))
    obtain ⟨t, ht⟩ := h c (by simp)
    refine ⟨{ c with typ := .old c.name t true } :: ds, ?_, ?_⟩
    · simp [wrapAll, wrapCol, ht, h1]
    · rw [List.map_cons, List.map_cons, h2]
      simp only [ht, says]

/-- One migration. -/
theorem next_ok {s : St} (h : Left s) (hl : s.level < 4) :
    ∃ s', next s = some s' ∧ Left s' ∧ s'.level = s.level + 1 ∧ content s' = content s ∧
      (3 ≤ s.level → delta s' = delta s) ∧ (s.level = 2 → (∀ t ∈ s'.tabs, t.uuid = 0) ∧ ∀ v ∈ s'.vers, v.version = -1) := by
  unfold next
  have h4 : s.level = 0 ∨ s.level = 1 ∨ s.level = 2 ∨ s.level = 3 := by omega
  rcases h4 with e | e | e | e
  · rw [e]
    refine ⟨_, rfl, ⟨by simp, by simp, ?_, by simp⟩, by simp, rfl, by omega, by omega⟩
    intro _ c hc
    simp [h.fresh e] at hc
  · rw [e]
    obtain ⟨ds, h1, h2⟩ := wrapAll_bare (h.first e)
    refine ⟨{ s with level := 2, cols := ds }, by simp [mig2, h1], ⟨by simp, by simp, by simp, by simp⟩, by simp, ?_,
      by omega, by omega⟩
    unfold content
    simp only [h2]
  · rw [e]
    refine ⟨_, rfl, ⟨by simp, by simp, by simp, by simp⟩, by simp, ?_, by omega, ?_⟩
    · simp [content, Function.comp_def]
    · intro _
      simp only [List.mem_map]
      constructor
      · rintro t ⟨u, _, rfl⟩; rfl
      · rintro t ⟨u, _, rfl⟩; rfl
  · rw [e]
    refine ⟨_, rfl, ⟨by simp, by simp, by simp, ?_⟩, by simp, ?_, ?_, by omega⟩
    · intro _
      refine ⟨rfl, ?_⟩
      simp only [List.mem_map]
      rintro t ⟨u, _, rfl⟩; rfl
    · simp [content, Function.comp_def]
    · intro _; simp [delta, Function.comp_def]

/-- Any number of migrations. -/
theorem migrate_ok (n : Nat) {s : St} (h : Left s) :
    Left (migrate n s).1 ∧ content (migrate n s).1 = content s ∧ (3 ≤ s.level → delta (migrate n s).1 = delta s) ∧
    s.level ≤ (migrate n s).1.level ∧ (4 ≤ s.level + n → (migrate n s).2 = .running) ∧
    ((migrate n s).2 = .running ↔ (migrate n s).1.level = 4) ∧ (migrate n s).2 ≠ .panic := by
  induction n generalizing s with
  | zero =>
    unfold migrate
    by_cases hl : s.level = 4
    · simp [hl, h]
    · have := h.known
      simp [hl, h]
      omega
  | succ n ih =>
    unfold migrate
    by_cases hl : s.level = 4
    · simp [hl, h]
    · have hk := h.known
      obtain ⟨s', h1, h2, h3, h4, h5, _⟩ := next_ok h (by omega)
      obtain ⟨i1, i2, i3, i4, i5, i6, i7⟩ := ih h2
      simp only [hl, if_false, h1]
      refine ⟨i1, by rw [i2, h4], ?_, by omega, fun hx => i5 (by omega), i6, i7⟩
      intro h3'
      rw [i3 (by omega), h5 h3']

/-! ### theorems -/

/-- **C125, partial**: whatever version the catalog is of, and whichever of the updates fail, the server starts, and the
databases, schemas, functions and tables with their versions and columns are the same as before, the types of the columns
included.  What belongs to Delta tables (UUIDs, versions, the tables to be removed) is the same if there were any.
(Missing: the files of older tables, see `C125_violated`.) -/
theorem C125_kept_partial (ok : Nat → Bool) (s : St) (h : Left s) :
    (setup ok 4 s).2 = .running ∧ content (setup ok 4 s).1 = content s ∧ (setup ok 4 s).1.level = 4 ∧
    (3 ≤ s.level → delta (setup ok 4 s).1 = delta s) := by
  obtain ⟨h1, h2, h3, h4, h5, h6, h7⟩ := migrate_ok 4 (left_convert h ok)
  have hk := h.known
  have hr := h5 (by simp)
  unfold setup
  rw [if_neg (by omega)]
  refine ⟨hr, by rw [h2, content_convert], h6.1 hr, fun hx => ?_⟩
  rw [h3 hx]
  rfl

/-- **C125**: a start may be cut off at any point; the next one goes through and loses nothing. -/
theorem C125_interrupted (ok ok' : Nat → Bool) (n : Nat) (s : St) (h : Left s) :
    let s1 := (setup ok n s).1
    (setup ok' 4 s1).2 = .running ∧ content (setup ok' 4 s1).1 = content s ∧
    (3 ≤ s.level → delta (setup ok' 4 s1).1 = delta s) := by
  intro s1
  obtain ⟨h1, h2, h3, h4, _⟩ := migrate_ok n (left_convert h ok)
  have e : s1 = (migrate n (convert ok s)).1 := by
    have hk := h.known
    show (setup ok n s).1 = _
    unfold setup
    rw [if_neg (by omega)]
  obtain ⟨k1, k2, _, k4⟩ := C125_kept_partial ok' s1 (e ▸ h1)
  refine ⟨k1, by rw [k2, e, h2, content_convert], fun hx => ?_⟩
  have hlv : 3 ≤ s1.level := by
    rw [e]
    have : (convert ok s).level = s.level := rfl
    omega
  rw [k4 hlv, e, h3 hx]
  rfl

/-- **C125**: a catalog of a later version is refused, with nothing changed but the format of types. -/
theorem C125_later (ok : Nat → Bool) (n : Nat) (s : St) (h : 4 < s.level) :
    (setup ok n s).2 = .panic ∧ content (setup ok n s).1 = content s ∧ (setup ok n s).1.level = s.level ∧
    delta (setup ok n s).1 = delta s := by
  unfold setup
  rw [if_pos h]
  exact ⟨rfl, content_convert ok s, rfl, rfl⟩

theorem convert_twice (ok ok' : Nat → Bool) (s : St) (h : ∀ c ∈ s.cols, ok' c.id = true → ok c.id = true) :
    convert ok' (convert ok s) = convert ok s := by
  simp only [convert, List.map_map, St.mk.injEq, true_and, and_true]
  apply List.map_congr_left
  intro c hc
  simp only [Function.comp_def]
  by_cases h1 : ok c.id = true
  · simp only [h1, if_true]
    split
    · cases c with
      | mk i v n t => cases t <;> rfl
    · rfl
  · simp only [h1]
    have : ¬ ok' c.id = true := fun hx => h1 (h c hc hx)
    simp [this]

/-- **C125**: starting again on a catalog of this version changes nothing, if the updates of the first start succeeded. -/
theorem C125_again (ok : Nat → Bool) (s : St) (h4 : s.level = 4) :
    setup ok 4 (setup (fun _ => true) 4 s).1 = setup (fun _ => true) 4 s := by
  have hm : ∀ t : St, t.level = 4 → migrate 4 t = (t, .running) := by
    intro t ht
    unfold migrate
    rw [if_pos ht]
  have h1 : setup (fun _ => true) 4 s = (convert (fun _ => true) s, .running) := by
    unfold setup
    rw [if_neg (by omega), hm _ (by simpa [convert] using h4)]
  rw [h1]
  unfold setup
  rw [if_neg (by simp [convert]; omega), convert_twice _ _ _ (fun _ _ _ => rfl), hm _ (by simpa [convert] using h4)]

/-- **C125 violated**: tables of the time before Delta are kept in name only.  Which files they consist of is deleted from the
catalog without a check; they all get the same UUID and version, and nothing tells them from others. -/
theorem C125_violated (ok : Nat → Bool) (s : St) (h : Left s) :
    (setup ok 4 s).1.parts = [] ∧ (∀ t ∈ (setup ok 4 s).1.tabs, t.legacy = false) ∧
    (s.level < 3 → (∀ t ∈ (setup ok 4 s).1.tabs, t.uuid = 0) ∧ ∀ v ∈ (setup ok 4 s).1.vers, v.version = -1) := by
  obtain ⟨h1, h2, h3, h4, h5, h6, _⟩ := migrate_ok 4 (left_convert h ok)
  have hk := h.known
  have hlast := h1.last (h6.1 (h5 (by simp)))
  have e : (setup ok 4 s).1 = (migrate 4 (convert ok s)).1 := by
    unfold setup
    rw [if_neg (by omega)]
  rw [e]
  refine ⟨hlast.1, hlast.2, ?_⟩
  intro hl
  have key : ∀ n (t : St), Left t → t.level < 3 → 4 ≤ t.level + n →
      (∀ x ∈ (migrate n t).1.tabs, x.uuid = 0) ∧ ∀ v ∈ (migrate n t).1.vers, v.version = -1 := by
    intro n
    induction n with
    | zero => intro t _ h1 h2; omega
    | succ n ih =>
      intro t ht hl3 hn
      obtain ⟨t', g1, g2, g3, g4, g5, g6⟩ := next_ok ht (by omega)
      unfold migrate
      simp only [show ¬ t.level = 4 by omega, if_false, g1]
      by_cases h2 : t.level = 2
      · obtain ⟨u1, u2⟩ := g6 h2
        obtain ⟨_, _, m3, _⟩ := migrate_ok n g2
        have hd := m3 (by omega)
        simp only [delta, Prod.mk.injEq] at hd
        constructor
        · intro x hx
          have : (x.id, x.uuid) ∈ (migrate n t').1.tabs.map (fun t => (t.id, t.uuid)) := List.mem_map.2 ⟨x, hx, rfl⟩
          rw [hd.1] at this
          obtain ⟨y, hy, e⟩ := List.mem_map.1 this
          have := u1 y hy
          simp only [Prod.mk.injEq] at e
          omega
        · intro x hx
          have : (x.id, x.version) ∈ (migrate n t').1.vers.map (fun v => (v.id, v.version)) := List.mem_map.2 ⟨x, hx, rfl⟩
          rw [hd.2.1] at this
          obtain ⟨y, hy, e⟩ := List.mem_map.1 this
          have := u2 y hy
          simp only [Prod.mk.injEq] at e
          omega
      · exact ih t' g2 (by omega) (by omega)
  exact key 4 _ (left_convert h ok) hl (by simp)

/-- **C125 violated**: the loop runs before the migrations, so that types of the first version are left in the old format by the
first start, and are converted by the second. -/
theorem C125_violated_order (t : String) :
    let s : St := ⟨1, [], [], [], [], [], [⟨1, 1, "a", .bare t⟩], [], []⟩
    (setup (fun _ => true) 4 s).1.cols = [⟨1, 1, "a", .old "a" t true⟩] ∧
    (setup (fun _ => true) 4 (setup (fun _ => true) 4 s).1).1.cols = [⟨1, 1, "a", .field "a" t true⟩] := by
  simp [setup, convert, convertCol, migrate, next, mig2, mig3, mig4, wrapAll, wrapCol]

/-- **C125**: a read-only catalog is left as it is; one of an earlier version is opened as well. -/
theorem C125_read_only (s : St) : openReadOnly s = (s, .running) := rfl

/-! ### concrete cases -/

/-- The catalog of the first version, with two tables. -/
def exOld : St :=
  ⟨1, [(1, "default")], [(1, 1, "public")], [], [⟨1, 1, "a", false, 0⟩, ⟨2, 1, "b", false, 0⟩], [⟨1, 1, 5, 0⟩, ⟨2, 2, 6, 0⟩],
    [⟨1, 1, "x", .bare "int"⟩, ⟨2, 2, "y", .bare "utf8"⟩], [⟨1, "f.parquet"⟩, ⟨2, "g.parquet"⟩], []⟩

example : Left exOld := by
  refine ⟨by decide, by decide, ?_, by decide⟩
  intro _ c hc
  simp only [exOld, List.mem_cons, List.not_mem_nil, or_false] at hc
  rcases hc with rfl | rfl
  · exact ⟨_, rfl⟩
  · exact ⟨_, rfl⟩

example : (setup (fun _ => true) 4 exOld).1 =
    ⟨4, [(1, "default")], [(1, 1, "public")], [], [⟨1, 1, "a", false, 0⟩, ⟨2, 1, "b", false, 0⟩], [⟨1, 1, 5, -1⟩, ⟨2, 2, 6, -1⟩],
      [⟨1, 1, "x", .old "x" "int" true⟩, ⟨2, 2, "y", .old "y" "utf8" true⟩], [], []⟩ := by
  simp [setup, convert, convertCol, migrate, next, mig2, mig3, mig4, wrapAll, wrapCol, exOld]

/-- A text that is not JSON stops the migration. -/
example : (setup (fun _ => true) 4 { exOld with cols := [⟨1, 1, "x", .junk "{"⟩] }).2 = .panic := by
  simp [setup, convert, convertCol, migrate, next, mig2, wrapAll, wrapCol, exOld]

end Seafowl.Upgrade
