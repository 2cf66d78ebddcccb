import Verif.Catalog.Concurrent
import Verif.Catalog.HistProps

/-!
# C127: concurrent changes of the catalog take effect as if made one after the other
-/

namespace Seafowl.Catalog.Concurrent

open Seafowl.Catalog

set_option linter.unusedSimpArgs false
set_option linter.unusedVariables false

/-! ### specification -/

/-- Everything but the column rows (which no operation reads back but to copy them). -/
def core (s : Cat) : Cat := { s with cols := [] }

/-- What the operation asked the database for is still so: the names it looked up denote the rows whose
identifiers it holds, and the version whose columns it is about to write is there, without columns. -/
def Still (s : Cat) : Op → Stage → Prop
  | .deleteDb n, .held id => ∃ d, IsDb s n d ∧ d.id = id
  | .createSchema db n, .held id => n ≠ staging ∧ ∃ d, IsDb s db d ∧ d.id = id
  | .deleteSchema db n, .held id => n ≠ staging ∧ ∃ c, IsSchema s db n c ∧ c.id = id
  | .createTable db sch _ _ _ _ _, .held id => sch ≠ staging ∧ ∃ c, IsSchema s db sch c ∧ c.id = id
  | .newVersion uuid _ _ _, .held id =>
    ∃ v t, v ∈ s.vers ∧ v.id = id ∧ t ∈ s.tabs ∧ t.id = v.tableId ∧ t.uuid = uuid ∧ ∀ u ∈ s.tabs, u.uuid = uuid → u = t
  | .deleteOldVersions db sch n, .held id => ∃ t, IsTable s db sch n t ∧ t.id = id
  | .renameTable db os on _ _, .held id => ∃ t, IsTable s db os on t ∧ t.id = id
  | .renameTable db os on ns _, .held2 id coll =>
    ns ≠ os ∧ ns ≠ staging ∧ (∃ t, IsTable s db os on t ∧ t.id = id) ∧ ∃ c, IsSchema s db ns c ∧ c.id = coll
  | .deleteTable db sch n, .held id => ∃ t, IsTable s db sch n t ∧ t.id = id
  | .createFunction db _ _ _, .held id => ∃ d, IsDb s db d ∧ d.id = id
  | .deleteFunctions db _ _, .held id => ∃ d, IsDb s db d ∧ d.id = id
  | .createTable _ _ _ columns _ _ _, .cols vid => columns ≠ [] ∧ (∃ v ∈ s.vers, v.id = vid) ∧ ∀ c ∈ s.cols, c.verId ≠ vid
  | .newVersion _ _ _ _, .copy _ vid => (∃ v ∈ s.vers, v.id = vid) ∧ ∀ c ∈ s.cols, c.verId ≠ vid
  | _, .start => True
  | _, .done _ => True
  | _, _ => False

/-- No call of the schedule finds what its operation holds overtaken by another operation. -/
def Undisturbed (ops : Nat → Op) (c : Conf) : List Nat → Prop
  | [] => True
  | i :: rest => Still c.cat (ops i) (c.stage i) ∧ Undisturbed ops (call ops c i) rest

/-- The operation has returned. -/
def Finished (c : Conf) (i : Nat) : Prop := ∃ e, c.stage i = .done e

/-- The database (columns aside) and all answers are those of executing the operations one after the other, in
some order that agrees with real time: whatever has returned before a point of the schedule comes before
whatever has not begun by then. -/
def Serial (s : Cat) (ops : Nat → Op) (sch : List Nat) : Prop :=
  ∃ order : List Nat, order.Nodup ∧
    core (interleave ops (initial s) sch).cat = core (run s (order.map ops)) ∧
    (∀ i, Finished (interleave ops (initial s) sch) i → i ∈ order) ∧
    (∀ i ∈ order, (interleave ops (initial s) sch).stage i ≠ .start) ∧
    (∀ k i e, order[k]? = some i → (interleave ops (initial s) sch).stage i = .done e →
      (exec (run s ((order.take k).map ops)) (ops i)).2 = e) ∧
    (∀ a b, sch = a ++ b → ∃ before after, order = before ++ after ∧
      (∀ i, Finished (interleave ops (initial s) a) i → i ∈ before) ∧
      (∀ i, (interleave ops (initial s) a).stage i = .start → i ∉ before))

/-! ### names and identifiers stay unique, references intact -/

theorem wf_insertTab (s : Cat) (h : WF s) (collId : Nat) (n : String) (uuid : Nat) (now : Int) :
    WF (insertTab s collId n uuid now).1 := by
  have := wf_repoCreateTab s h collId n [] uuid now true
  simp only [repoCreateTab] at this
  simp only [insertTab]
  split at this
  · next hx => simp only [hx, if_true]; exact h
  · next hx =>
    simp only [hx]
    split at this
    · next hy => simp only [hy, if_true]; exact h
    · next hy => simp only [hy]; exact this

theorem wf_insertVer (s : Cat) (h : WF s) (last : Nat) (version now : Int) : WF (insertVer s last version now).1 := by
  simp only [insertVer]
  split
  · exact h
  · next v hv =>
    obtain ⟨hv1, hv2⟩ := find_some hv
    refine { h with verIds := pairwise_snoc h.verIds ?_, verParent := ?_, colParent := ?_ }
    · intro b hb e
      have := lt_newId_map (fun x => x.id) hb
      simp only at e
      omega
    · intro w hw
      rcases List.mem_append.1 hw with hw | hw
      · exact h.verParent w hw
      · simp only [List.mem_singleton] at hw
        subst hw
        exact h.verParent v hv1
    · intro c hc
      obtain ⟨w, hw, e⟩ := h.colParent c hc
      exact ⟨w, List.mem_append.2 (Or.inl hw), e⟩

theorem wf_insertCols (s : Cat) (h : WF s) (cs : List Col) (vid : Nat) (distinct : Bool) (hcs : ∀ c ∈ cs, c.verId = vid)
    (hd : distinct = true → cs.Pairwise (fun a b => a.name ≠ b.name)) : WF (insertCols s cs vid distinct).1 := by
  simp only [insertCols]
  split
  · exact h
  · next h1 =>
    simp only [Bool.or_eq_true, Bool.not_eq_true', not_or, Bool.not_eq_false, List.any_eq_true, not_exists, not_and] at h1
    split
    · exact h
    · next h2 =>
      refine { h with colNames := ?_, colParent := ?_ }
      · rw [List.pairwise_append]
        refine ⟨h.colNames, (hd h1.1).imp (fun hab e => hab e.2), ?_⟩
        rintro a ha b hb ⟨e, e2⟩
        have := h1.2 b hb a ha
        rw [hcs b hb] at e
        simp [e, e2] at this
      · intro c hc
        rcases List.mem_append.1 hc with hc | hc
        · exact h.colParent c hc
        · cases cs with
          | nil => simp at hc
          | cons x xs =>
            simp only [List.isEmpty_cons, Bool.not_false, Bool.true_and, Bool.not_eq_true', Bool.not_eq_false,
              List.any_eq_true, beq_iff_eq] at h2
            obtain ⟨v, hv, e⟩ := h2
            exact ⟨v, hv, by rw [e, hcs c hc]⟩

/-- The state part of a result that was matched on. -/
theorem wf_heldOf {α : Type} (s : Cat) (h : WF s) (f : α → Nat) (r : Except CatErr α) : WF (heldOf s f r).1 := by
  cases r <;> exact h

theorem wf_rename (s : Cat) (h : WF s) (id : Nat) (coll : Option Nat) (on ns nn : String) :
    WF (rename s id coll on ns nn).1 := by
  have := wf_repoRename s h id nn coll
  simp only [rename]
  split <;> (next hx => rw [hx] at this; exact this)

theorem wf_first (s : Cat) (h : WF s) (op : Op) : WF (first s op).1 := by
  cases op with
  | createDb n =>
    have := wf_repoCreateDb s h n
    simp only [first]
    split <;> (next hx => rw [hx] at this; exact this)
  | createSchema db n => simp only [first]; split; exact h; exact wf_heldOf s h _ _
  | newVersion u v n ok => simp only [first]; split <;> exact h
  | _ => exact wf_heldOf s h _ _

theorem wf_second (s : Cat) (h : WF s) (id : Nat) (op : Op) : WF (second s id op).1 := by
  cases op with
  | createDb n => exact h
  | deleteDb n =>
    have := wf_repoDeleteDb s h id
    simp only [second]
    split <;> (next hx => rw [hx] at this; exact this)
  | createSchema db n =>
    have := wf_repoCreateColl s h id n
    simp only [second]
    split <;> (next hx => rw [hx] at this; exact this)
  | deleteSchema db n =>
    have := wf_repoDeleteColl s h id
    simp only [second]
    split <;> (next hx => rw [hx] at this; exact this)
  | createTable db sch n cs u now ok =>
    have := wf_insertTab s h id n u now
    simp only [second]
    split <;> (next hx => rw [hx] at this; exact this)
  | newVersion u v now ok =>
    have := wf_insertVer s h id v now
    simp only [second]
    split <;> (next hx => rw [hx] at this; exact this)
  | deleteOldVersions db sch n => exact wf_repoDeleteOld s h id
  | renameTable db os on ns nn =>
    simp only [second]
    split
    · split <;> exact h
    · exact wf_rename s h id _ _ _ _
  | deleteTable db sch n =>
    have := wf_repoDeleteTab s h id
    simp only [second]
    split <;> (next hx => rw [hx] at this; exact this)
  | createFunction db n o d =>
    have := wf_repoCreateFn s h id n o d
    simp only [second]
    split <;> (next hx => rw [hx] at this; exact this)
  | deleteFunctions db i ns =>
    have := wf_repoDropFn s h id ns
    simp only [second]
    split <;> (next hx => rw [hx] at this; exact this)

theorem wf_writeCols (s : Cat) (h : WF s) (vid : Nat) (op : Op) : WF (writeCols s vid op).1 := by
  cases op with
  | createTable db sch n cs u now ok =>
    simp only [writeCols]
    split
    · exact h
    · have := wf_insertCols s h (cs.map (fun c => { verId := vid, name := c.1, typ := c.2 })) vid (distinctNames cs)
        (by intro c hc; obtain ⟨x, _, rfl⟩ := List.mem_map.1 hc; rfl)
        (by intro hd; rw [List.pairwise_map]; exact distinct_pairwise cs hd)
      split <;> (next hx => rw [hx] at this; exact this)
  | _ => exact h

theorem wf_copyCols (s : Cat) (h : WF s) (last vid : Nat) (op : Op) : WF (copyCols s last vid op).1 := by
  cases op with
  | newVersion u v now ok =>
    simp only [copyCols]
    split
    · exact h
    · have := wf_insertCols s h ((s.cols.filter (·.verId == last)).map (fun c => { c with verId := vid })) vid true
        (by intro c hc; obtain ⟨x, _, rfl⟩ := List.mem_map.1 hc; rfl)
        (by
          intro _
          rw [List.pairwise_map]
          refine List.Pairwise.imp_of_mem ?_ (pairwise_filter _ h.colNames)
          intro a b ha hb hab e
          have ha2 := (List.mem_filter.1 ha).2
          have hb2 := (List.mem_filter.1 hb).2
          simp only [beq_iff_eq] at ha2 hb2
          exact hab ⟨by rw [ha2, hb2], e⟩)
      split <;> (next hx => rw [hx] at this; exact this)
  | _ => exact h

theorem wf_step (s : Cat) (h : WF s) (op : Op) (st : Stage) : WF (step s op st).1 := by
  cases st with
  | start => exact wf_first s h op
  | held id => exact wf_second s h id op
  | held2 id coll =>
    cases op with
    | renameTable db os on ns nn => exact wf_rename s h id _ _ _ _
    | _ => exact h
  | cols vid => exact wf_writeCols s h vid op
  | copy last vid => exact wf_copyCols s h last vid op
  | done e => exact h

theorem wf_interleave (ops : Nat → Op) (c : Conf) (h : WF c.cat) (sch : List Nat) : WF (interleave ops c sch).cat := by
  induction sch generalizing c with
  | nil => exact h
  | cons i rest ih => exact ih (call ops c i) (wf_step _ h _ _)

/-- **C127** (names): whatever the order in which the calls of any number of concurrent operations reach the
database, names stay unique and references intact. -/
theorem C127_intact (s : Cat) (h : WF s) (ops : Nat → Op) (sch : List Nat) :
    WF (interleave ops (initial s) sch).cat := wf_interleave ops _ h sch

/-! ### lookups that still hold -/

theorem getDb_of {s : Cat} (h : WF s) {n : String} {d : Db} (hd : IsDb s n d) : getDb s n = .ok d := by
  rcases getDb_cases s n with ⟨x, hx, e⟩ | ⟨hx, _⟩
  · rw [e, IsDb_unique h hx hd]
  · exact absurd hd (hx d)

theorem getSchema_of {s : Cat} (h : WF s) {db n : String} {c : Coll} (hn : n ≠ staging) (hc : IsSchema s db n c) :
    getSchema s db n = .ok c := by
  rcases getSchema_cases s db n hn with ⟨x, hx, e⟩ | ⟨hx, _⟩
  · rw [e, IsSchema_unique h hx hc]
  · exact absurd hc (hx c)

theorem getTable_of {s : Cat} (h : WF s) {db sch n : String} {t : Tab} (ht : IsTable s db sch n t) :
    getTable s db sch n = .ok t := (getTable_iff h db sch n t).2 ht

theorem find_ver {s : Cat} (h : WF s) {v : Ver} (hv : v ∈ s.vers) : s.vers.find? (·.id == v.id) = some v := by
  cases hf : s.vers.find? (·.id == v.id) with
  | none =>
    rw [List.find?_eq_none] at hf
    exact absurd (beq_self_eq_true v.id) (hf v hv)
  | some w =>
    obtain ⟨hw, e⟩ := find_some hf
    simp only [beq_iff_eq] at e
    rw [eq_of_pairwise h.verIds hw hv (by simp [e]) (by simp [e])]

/-- The version a write starts from belongs to the table with the UUID. -/
theorem last_of {s : Cat} (h : WF s) {v : Ver} {t : Tab} (hv : v ∈ s.vers) (ht : t ∈ s.tabs) (e : t.id = v.tableId)
    (hu : ∀ u ∈ s.tabs, u.uuid = t.uuid → u = t) :
    ∃ last w, lastVersion s t.uuid = some last ∧ s.vers.find? (·.id == last) = some w ∧ w.tableId = v.tableId := by
  cases hl : lastVersion s t.uuid with
  | none =>
    simp only [lastVersion, maxOf_none, List.map_eq_nil_iff, List.filter_eq_nil_iff] at hl
    have := hl v hv
    simp only [List.any_eq_true, Bool.and_eq_true, beq_iff_eq] at this
    exact absurd ⟨t, ht, e, rfl⟩ this
  | some last =>
    have hl' := hl
    simp only [lastVersion, maxOf_some, List.mem_map, List.mem_filter, List.any_eq_true, Bool.and_eq_true, beq_iff_eq] at hl'
    obtain ⟨⟨w, ⟨hw, u, hu1, hu2, hu3⟩, rfl⟩, _⟩ := hl'
    refine ⟨w.id, w, rfl, find_ver h hw, ?_⟩
    rw [← hu2, hu u hu1 hu3, e]

/-! ### what the operations do does not depend on the columns -/

/-- The second result is the first one but for the columns. -/
def SameBut {α : Type} (r r' : Cat × α) : Prop := core r'.1 = core r.1 ∧ r'.2 = r.2

theorem core_eq {s s' : Cat} (h : core s = core s') : s' = { s with cols := s'.cols } := by
  cases s; cases s'
  simp only [core, Cat.mk.injEq] at h
  obtain ⟨rfl, rfl, rfl, rfl, _, rfl⟩ := h
  rfl

theorem same_repo (s : Cat) (cs : List Col) :
    (∀ n, SameBut (repoCreateDb s n) (repoCreateDb { s with cols := cs } n)) ∧
    (∀ d n, SameBut (repoCreateColl s d n) (repoCreateColl { s with cols := cs } d n)) ∧
    (∀ d n l u t ok, SameBut (repoCreateTab s d n l u t ok) (repoCreateTab { s with cols := cs } d n l u t ok)) ∧
    (∀ u v t ok, SameBut (repoNewVersion s u v t ok) (repoNewVersion { s with cols := cs } u v t ok)) ∧
    (∀ i n c, SameBut (repoRename s i n c) (repoRename { s with cols := cs } i n c)) ∧
    (∀ d n o x, SameBut (repoCreateFn s d n o x) (repoCreateFn { s with cols := cs } d n o x)) ∧
    (∀ d ns, SameBut (repoDropFn s d ns) (repoDropFn { s with cols := cs } d ns)) ∧
    (∀ i, SameBut (repoDeleteTab s i) (repoDeleteTab { s with cols := cs } i)) ∧
    (∀ i, SameBut (repoDeleteColl s i) (repoDeleteColl { s with cols := cs } i)) ∧
    (∀ i, SameBut (repoDeleteDb s i) (repoDeleteDb { s with cols := cs } i)) := by
  refine ⟨?_, ?_, ?_, ?_, ?_, ?_, ?_, ?_, ?_, ?_⟩
  · intro n; simp only [SameBut, repoCreateDb]; split <;> exact ⟨rfl, rfl⟩
  · intro d n; simp only [SameBut, repoCreateColl]; split; exact ⟨rfl, rfl⟩; split <;> exact ⟨rfl, rfl⟩
  · intro d n l u t ok
    simp only [SameBut, repoCreateTab]
    split
    · exact ⟨rfl, rfl⟩
    · split
      · exact ⟨rfl, rfl⟩
      · split
        · exact ⟨rfl, rfl⟩
        · split
          · exact ⟨rfl, rfl⟩
          · split <;> exact ⟨rfl, rfl⟩
  · intro u v t ok
    have e : lastVersion { s with cols := cs } u = lastVersion s u := rfl
    simp only [SameBut, repoNewVersion, e]
    cases lastVersion s u with
    | none => exact ⟨rfl, rfl⟩
    | some last =>
      simp only
      cases s.vers.find? (·.id == last) with
      | none => exact ⟨rfl, rfl⟩
      | some v => cases ok <;> exact ⟨rfl, rfl⟩
  · intro i n c
    simp only [SameBut, repoRename]
    cases s.tabs.find? (·.id == i) with
    | none => exact ⟨rfl, rfl⟩
    | some t => simp only; split; exact ⟨rfl, rfl⟩; split <;> exact ⟨rfl, rfl⟩
  · intro d n o x
    simp only [SameBut, repoCreateFn]
    cases s.fns.find? (fun f => f.name == n && f.dbId == d) with
    | none => simp only; split <;> exact ⟨rfl, rfl⟩
    | some t => simp only; split <;> exact ⟨rfl, rfl⟩
  · intro d ns; simp only [SameBut, repoDropFn]; split <;> exact ⟨rfl, rfl⟩
  · intro i; simp only [SameBut, repoDeleteTab]; split <;> exact ⟨rfl, rfl⟩
  · intro i; simp only [SameBut, repoDeleteColl]; split <;> exact ⟨rfl, rfl⟩
  · intro i; simp only [SameBut, repoDeleteDb]; split <;> exact ⟨rfl, rfl⟩

theorem exec_cols (s : Cat) (cs : List Col) (op : Op) : SameBut (exec s op) (exec { s with cols := cs } op) := by
  obtain ⟨h1, h2, h3, h4, h5, h6, h7, h8, h9, h10⟩ := same_repo s cs
  have g1 : ∀ n, getDb { s with cols := cs } n = getDb s n := fun _ => rfl
  have g2 : ∀ d n, getSchema { s with cols := cs } d n = getSchema s d n := fun _ _ => rfl
  have g3 : ∀ d c n, getTable { s with cols := cs } d c n = getTable s d c n := fun _ _ _ => rfl
  cases op with
  | createDb n =>
    simp only [SameBut, exec, createDb]
    have := h1 n
    rcases hr : repoCreateDb s n with ⟨a, x⟩
    rcases hr' : repoCreateDb { s with cols := cs } n with ⟨b, y⟩
    rw [hr, hr'] at this
    obtain ⟨e1, e2⟩ := this
    simp only at e1 e2
    subst e2
    rcases y with (_ | _ | _ | _) | _ <;> exact ⟨e1, rfl⟩
  | deleteDb n =>
    simp only [SameBut, exec, deleteDb, g1]
    cases hg : getDb s n with
    | error e => exact ⟨rfl, rfl⟩
    | ok d =>
      have := h10 d.id
      rcases hr : repoDeleteDb s d.id with ⟨a, x⟩
      rcases hr' : repoDeleteDb { s with cols := cs } d.id with ⟨b, y⟩
      rw [hr, hr'] at this
      obtain ⟨e1, e2⟩ := this
      simp only at e1 e2
      subst e2
      simp only [hr, hr']
      rcases y with (_ | _ | _ | _) | _ <;> exact ⟨e1, rfl⟩
  | createSchema db n =>
    simp only [SameBut, exec, createSchema, g1]
    split
    · exact ⟨rfl, rfl⟩
    · cases hg : getDb s db with
      | error e => exact ⟨rfl, rfl⟩
      | ok d =>
        have := h2 d.id n
        rcases hr : repoCreateColl s d.id n with ⟨a, x⟩
        rcases hr' : repoCreateColl { s with cols := cs } d.id n with ⟨b, y⟩
        rw [hr, hr'] at this
        obtain ⟨e1, e2⟩ := this
        simp only at e1 e2
        subst e2
        simp only [hr, hr']
        rcases y with (_ | _ | _ | _) | _ <;> exact ⟨e1, rfl⟩
  | deleteSchema db n =>
    simp only [SameBut, exec, deleteSchema, g2]
    cases hg : getSchema s db n with
    | error e => exact ⟨rfl, rfl⟩
    | ok d =>
      have := h9 d.id
      rcases hr : repoDeleteColl s d.id with ⟨a, x⟩
      rcases hr' : repoDeleteColl { s with cols := cs } d.id with ⟨b, y⟩
      rw [hr, hr'] at this
      obtain ⟨e1, e2⟩ := this
      simp only at e1 e2
      subst e2
      simp only [hr, hr']
      rcases y with (_ | _ | _ | _) | _ <;> exact ⟨e1, rfl⟩
  | createTable db sch n l u t ok =>
    simp only [SameBut, exec, createTable, g2]
    cases hg : getSchema s db sch with
    | error e => exact ⟨rfl, rfl⟩
    | ok d =>
      have := h3 d.id n l u t ok
      rcases hr : repoCreateTab s d.id n l u t ok with ⟨a, x⟩
      rcases hr' : repoCreateTab { s with cols := cs } d.id n l u t ok with ⟨b, y⟩
      rw [hr, hr'] at this
      obtain ⟨e1, e2⟩ := this
      simp only at e1 e2
      subst e2
      simp only [hr, hr']
      rcases y with (_ | _ | _ | _) | _ <;> exact ⟨e1, rfl⟩
  | newVersion u v t ok =>
    simp only [SameBut, exec, newVersion]
    have := h4 u v t ok
    rcases hr : repoNewVersion s u v t ok with ⟨a, x⟩
    rcases hr' : repoNewVersion { s with cols := cs } u v t ok with ⟨b, y⟩
    rw [hr, hr'] at this
    obtain ⟨e1, e2⟩ := this
    simp only at e1 e2
    subst e2
    rcases y with (_ | _ | _ | _) | _ <;> exact ⟨e1, rfl⟩
  | deleteOldVersions db sch n =>
    simp only [SameBut, exec, deleteOldVersions, g3]
    cases hg : getTable s db sch n with
    | error e => exact ⟨rfl, rfl⟩
    | ok d =>
      exact ⟨rfl, rfl⟩
  | renameTable db os on ns nn =>
    simp only [SameBut, exec, renameTable, g2, g3]
    cases hg : getTable s db os on with
    | error e => exact ⟨rfl, rfl⟩
    | ok t =>
      simp only
      generalize (if ns ≠ os then
        match getSchema s db ns with
        | .error e => (.error e : Except CatErr (Option Nat))
        | .ok c => .ok (some c.id)
      else .ok none) = target
      cases target with
      | error e => exact ⟨rfl, rfl⟩
      | ok c =>
        simp only
        have := h5 t.id nn c
        rcases hr : repoRename s t.id nn c with ⟨a, x⟩
        rcases hr' : repoRename { s with cols := cs } t.id nn c with ⟨b, y⟩
        rw [hr, hr'] at this
        obtain ⟨e1, e2⟩ := this
        simp only at e1 e2
        subst e2
        rcases y with (_ | _ | _ | _) | _ <;> exact ⟨e1, rfl⟩
  | deleteTable db sch n =>
    simp only [SameBut, exec, deleteTable, g3]
    cases hg : getTable s db sch n with
    | error e => exact ⟨rfl, rfl⟩
    | ok d =>
      have := h8 d.id
      rcases hr : repoDeleteTab s d.id with ⟨a, x⟩
      rcases hr' : repoDeleteTab { s with cols := cs } d.id with ⟨b, y⟩
      rw [hr, hr'] at this
      obtain ⟨e1, e2⟩ := this
      simp only at e1 e2
      subst e2
      simp only [hr, hr']
      rcases y with (_ | _ | _ | _) | _ <;> exact ⟨e1, rfl⟩
  | createFunction db n o x' =>
    simp only [SameBut, exec, createFunction, g1]
    cases hg : getDb s db with
    | error e => exact ⟨rfl, rfl⟩
    | ok d =>
      have := h6 d.id n o x'
      rcases hr : repoCreateFn s d.id n o x' with ⟨a, x⟩
      rcases hr' : repoCreateFn { s with cols := cs } d.id n o x' with ⟨b, y⟩
      rw [hr, hr'] at this
      obtain ⟨e1, e2⟩ := this
      simp only at e1 e2
      subst e2
      simp only [hr, hr']
      rcases y with (_ | _ | _ | _) | _ <;> exact ⟨e1, rfl⟩
  | deleteFunctions db i ns =>
    simp only [SameBut, exec, deleteFunctions, g1]
    cases hg : getDb s db with
    | error e => exact ⟨rfl, rfl⟩
    | ok d =>
      have := h7 d.id ns
      rcases hr : repoDropFn s d.id ns with ⟨a, x⟩
      rcases hr' : repoDropFn { s with cols := cs } d.id ns with ⟨b, y⟩
      rw [hr, hr'] at this
      obtain ⟨e1, e2⟩ := this
      simp only at e1 e2
      subst e2
      simp only [hr, hr']
      rcases y with (_ | _ | _ | _) | _ <;> first | exact ⟨e1, rfl⟩ | (cases i <;> exact ⟨e1, rfl⟩)

theorem exec_core {s s' : Cat} (h : core s = core s') (op : Op) :
    core (exec s' op).1 = core (exec s op).1 ∧ (exec s' op).2 = (exec s op).2 := by
  have := exec_cols s s'.cols op
  rw [← core_eq h] at this
  exact this

/-! ### the call that makes the operation take effect -/

/-- The operation has taken effect. -/
def Late : Stage → Prop
  | .cols _ => True
  | .copy _ _ => True
  | .done _ => True
  | _ => False

instance (st : Stage) : Decidable (Late st) := by cases st <;> simp only [Late] <;> infer_instance

/-- The answer of an operation that has taken effect, if the columns can be written. -/
def answer (op : Op) : Stage → Option CatErr
  | .done e => e
  | .cols _ =>
    match op with
    | .createTable _ _ n columns _ _ ok =>
      if !ok then some .sqlx else if !distinctNames columns then some (.tableAlreadyExists n) else none
    | _ => none
  | .copy _ _ =>
    match op with
    | .newVersion _ _ _ ok => if !ok then some .sqlx else none
    | _ => none
  | _ => none

theorem heldOf_ok {α : Type} (s : Cat) (f : α → Nat) (a : α) : heldOf s f (.ok a) = (s, .held (f a)) := rfl
theorem heldOf_error {α : Type} (s : Cat) (f : α → Nat) (e : CatErr) : heldOf s f (.error e) = (s, .done (some e)) := rfl

/-- The first call: either a lookup without effect or all of the operation. -/
theorem first_effect (s : Cat) (h : WF s) (op : Op) :
    ((first s op).1 = s ∧ ¬ Late (first s op).2) ∨
      (Late (first s op).2 ∧ (first s op).1 = (exec s op).1 ∧ answer op (first s op).2 = (exec s op).2) := by
  cases op with
  | createDb n =>
    right
    simp only [first, exec, createDb]
    rcases repoCreateDb s n with ⟨a, (_ | _ | _ | _) | _⟩ <;> exact ⟨trivial, rfl, rfl⟩
  | createSchema db n =>
    by_cases hn : n = staging
    · right; simp only [first, exec, createSchema, if_pos hn]; simp [Late, answer, errOf]
    · simp only [first, exec, createSchema, if_neg hn]
      cases getDb s db with
      | ok d => left; exact ⟨rfl, fun x => x⟩
      | error e => right; exact ⟨trivial, rfl, rfl⟩
  | newVersion u v t ok =>
    simp only [first, exec, newVersion, repoNewVersion]
    cases lastVersion s u with
    | none => right; exact ⟨trivial, rfl, rfl⟩
    | some l => left; exact ⟨rfl, fun x => x⟩
  | deleteDb n =>
    simp only [first, exec, deleteDb]
    cases getDb s n with
    | ok d => left; exact ⟨rfl, fun x => x⟩
    | error e => right; exact ⟨trivial, rfl, rfl⟩
  | deleteSchema db n =>
    simp only [first, exec, deleteSchema]
    cases getSchema s db n with
    | ok d => left; exact ⟨rfl, fun x => x⟩
    | error e => right; exact ⟨trivial, rfl, rfl⟩
  | createTable db sch n l u t ok =>
    simp only [first, exec, createTable]
    cases getSchema s db sch with
    | ok d => left; exact ⟨rfl, fun x => x⟩
    | error e => right; exact ⟨trivial, rfl, rfl⟩
  | deleteOldVersions db sch n =>
    simp only [first, exec, deleteOldVersions]
    cases getTable s db sch n with
    | ok d => left; exact ⟨rfl, fun x => x⟩
    | error e => right; exact ⟨trivial, rfl, rfl⟩
  | renameTable db os on ns nn =>
    simp only [first, exec, renameTable]
    cases getTable s db os on with
    | ok d => left; exact ⟨rfl, fun x => x⟩
    | error e => right; exact ⟨trivial, rfl, rfl⟩
  | deleteTable db sch n =>
    simp only [first, exec, deleteTable]
    cases getTable s db sch n with
    | ok d => left; exact ⟨rfl, fun x => x⟩
    | error e => right; exact ⟨trivial, rfl, rfl⟩
  | createFunction db n o d =>
    simp only [first, exec, createFunction]
    cases getDb s db with
    | ok d => left; exact ⟨rfl, fun x => x⟩
    | error e => right; exact ⟨trivial, rfl, rfl⟩
  | deleteFunctions db i ns =>
    simp only [first, exec, deleteFunctions]
    cases getDb s db with
    | ok d => left; exact ⟨rfl, fun x => x⟩
    | error e => right; exact ⟨trivial, rfl, rfl⟩

/-- `TableStore::update` from the identifiers. -/
theorem rename_effect (s : Cat) (id : Nat) (coll : Option Nat) (on ns nn : String) (op : Op) :
    Late (rename s id coll on ns nn).2 ∧ (rename s id coll on ns nn).1 = (repoRename s id nn coll).1 ∧
      answer op (rename s id coll on ns nn).2 =
        errOf (match repoRename s id nn coll with
          | (s', .ok _) => (s', (.ok () : Except CatErr Unit))
          | (s', .error .fk) => (s', .error (.schemaDoesNotExist ns))
          | (s', .error .unique) => (s', .error (.tableAlreadyExists nn))
          | (s', .error .notFound) => (s', .error (.tableDoesNotExist on))
          | (s', .error e) => (s', .error (genericErr e))).2 := by
  simp only [rename]
  rcases repoRename s id nn coll with ⟨a, (_ | _ | _ | _) | _⟩ <;> exact ⟨trivial, rfl, rfl⟩

/-- The second call, if what the operation holds is still so: another lookup without effect, or the
operation as a whole (but for columns). -/
theorem second_effect (s : Cat) (h : WF s) (id : Nat) (op : Op) (hs : Still s op (.held id)) :
    ((second s id op).1 = s ∧ ¬ Late (second s id op).2) ∨
      (Late (second s id op).2 ∧ core (second s id op).1 = core (exec s op).1 ∧
        answer op (second s id op).2 = (exec s op).2) := by
  cases op with
  | createDb n => exact absurd hs (by simp [Still])
  | deleteDb n =>
    obtain ⟨d, hd, rfl⟩ := hs
    right
    simp only [second, exec, deleteDb, getDb_of h hd]
    rcases repoDeleteDb s d.id with ⟨a, (_ | _ | _ | _) | _⟩ <;> exact ⟨trivial, rfl, rfl⟩
  | createSchema db n =>
    obtain ⟨hn, d, hd, rfl⟩ := hs
    right
    simp only [second, exec, createSchema, getDb_of h hd, if_neg hn]
    rcases repoCreateColl s d.id n with ⟨a, (_ | _ | _ | _) | _⟩ <;> exact ⟨trivial, rfl, rfl⟩
  | deleteSchema db n =>
    obtain ⟨hn, d, hd, rfl⟩ := hs
    right
    simp only [second, exec, deleteSchema, getSchema_of h hn hd]
    rcases repoDeleteColl s d.id with ⟨a, (_ | _ | _ | _) | _⟩ <;> exact ⟨trivial, rfl, rfl⟩
  | createTable db sch n l u t ok =>
    obtain ⟨hn, d, hd, rfl⟩ := hs
    right
    simp only [second, exec, createTable, getSchema_of h hn hd]
    cases h1 : s.tabs.any (fun t => t.name == n && t.collId == d.id) with
    | true => simp only [insertTab, repoCreateTab, h1, if_true]; simp [Late, answer, errOf, core]
    | false =>
      cases h2 : s.colls.any (·.id == d.id) with
      | false => simp only [insertTab, repoCreateTab, h1, h2]; exact ⟨trivial, rfl, rfl⟩
      | true =>
        cases hl : l.isEmpty with
        | true => simp [insertTab, repoCreateTab, h1, h2, hl, Late, answer, errOf, core]
        | false =>
          cases ok with
          | false => simp [insertTab, repoCreateTab, h1, h2, hl, Late, answer, errOf, core, genericErr]
          | true =>
            cases h4 : distinctNames l <;>
              simp [insertTab, repoCreateTab, h1, h2, h4, hl, Late, answer, errOf, core, genericErr]
  | newVersion u v t ok =>
    obtain ⟨w, tb, hw, rfl, ht, e, rfl, hu⟩ := hs
    obtain ⟨last, x, hl, hx, ex⟩ := last_of h hw ht e hu
    right
    simp only [second, exec, newVersion, insertVer, repoNewVersion, hl, hx, find_ver h hw, ex]
    cases ok <;> exact ⟨trivial, rfl, rfl⟩
  | deleteOldVersions db sch n =>
    obtain ⟨d, hd, rfl⟩ := hs
    right
    simp only [second, exec, deleteOldVersions, getTable_of h hd]
    simp [Late, answer, errOf]
  | renameTable db os on ns nn =>
    obtain ⟨d, hd, rfl⟩ := hs
    simp only [second, exec, renameTable, getTable_of h hd]
    by_cases hn : ns ≠ os
    · simp only [if_pos hn]
      cases getSchema s db ns with
      | error e => right; exact ⟨trivial, rfl, rfl⟩
      | ok c => left; exact ⟨rfl, fun x => x⟩
    · right
      simp only [if_neg hn, rename]
      rcases repoRename s d.id nn none with ⟨a, (_ | _ | _ | _) | _⟩ <;> exact ⟨trivial, rfl, rfl⟩
  | deleteTable db sch n =>
    obtain ⟨d, hd, rfl⟩ := hs
    right
    simp only [second, exec, deleteTable, getTable_of h hd]
    rcases repoDeleteTab s d.id with ⟨a, (_ | _ | _ | _) | _⟩ <;> exact ⟨trivial, rfl, rfl⟩
  | createFunction db n o x =>
    obtain ⟨d, hd, rfl⟩ := hs
    right
    simp only [second, exec, createFunction, getDb_of h hd]
    rcases repoCreateFn s d.id n o x with ⟨a, (_ | _ | _ | _) | _⟩ <;> exact ⟨trivial, rfl, rfl⟩
  | deleteFunctions db i ns =>
    obtain ⟨d, hd, rfl⟩ := hs
    right
    simp only [second, exec, deleteFunctions, getDb_of h hd]
    rcases repoDropFn s d.id ns with ⟨a, (_ | _ | _ | _) | _⟩ <;> first | exact ⟨trivial, rfl, rfl⟩ | (cases i <;> exact ⟨trivial, rfl, rfl⟩)

/-- A call before the effect. -/
theorem step_effect (s : Cat) (h : WF s) (op : Op) (st : Stage) (hs : Still s op st) (he : ¬ Late st) :
    ((step s op st).1 = s ∧ ¬ Late (step s op st).2) ∨
      (Late (step s op st).2 ∧ core (step s op st).1 = core (exec s op).1 ∧ answer op (step s op st).2 = (exec s op).2) := by
  cases st with
  | start =>
    rcases first_effect s h op with h1 | ⟨h1, h2, h3⟩
    · exact Or.inl h1
    · exact Or.inr ⟨h1, congrArg core h2, h3⟩
  | held id => exact second_effect s h id op hs
  | held2 id coll =>
    cases op with
    | renameTable db os on ns nn =>
      obtain ⟨hn, hg, ⟨t, ht, rfl⟩, c, hc, rfl⟩ := hs
      right
      simp only [step, exec, renameTable, getTable_of h ht, if_pos hn, getSchema_of h hg hc, rename]
      rcases repoRename s t.id nn (some c.id) with ⟨a, (_ | _ | _ | _) | _⟩ <;> exact ⟨trivial, rfl, rfl⟩
    | _ => exact absurd hs (by simp [Still])
  | cols vid => exact absurd trivial he
  | copy last vid => exact absurd trivial he
  | done e => exact absurd trivial he

theorem insertCols_ok (s : Cat) (cs : List Col) (vid : Nat) (distinct : Bool) (hv : ∃ v ∈ s.vers, v.id = vid)
    (hc : ∀ c ∈ s.cols, c.verId ≠ vid) :
    insertCols s cs vid distinct = if distinct then ({ s with cols := s.cols ++ cs }, .ok ()) else (s, .error .unique) := by
  have h1 : cs.any (fun c => s.cols.any (fun d => d.verId == vid && d.name == c.name)) = false := by
    simp only [List.any_eq_false, List.any_eq_true, Bool.and_eq_true, beq_iff_eq, not_exists, not_and]
    intro c _ d hd e
    exact absurd e (hc d hd)
  have h2 : s.vers.any (·.id == vid) = true := by
    obtain ⟨v, hv, e⟩ := hv
    simp only [List.any_eq_true, beq_iff_eq]
    exact ⟨v, hv, e⟩
  simp only [insertCols, h1, h2, Bool.not_true, Bool.and_false, Bool.or_false]
  cases distinct <;> rfl

/-- A call after the effect. -/
theorem step_late (s : Cat) (h : WF s) (op : Op) (st : Stage) (hs : Still s op st) (hl : Late st) :
    core (step s op st).1 = core s ∧ Late (step s op st).2 ∧ answer op (step s op st).2 = answer op st := by
  cases st with
  | start => exact absurd hl (by simp [Late])
  | held id => exact absurd hl (by simp [Late])
  | held2 id coll => exact absurd hl (by simp [Late])
  | cols vid =>
    cases op with
    | createTable db sch n l u t ok =>
      obtain ⟨_, hv, hc⟩ := hs
      simp only [step, writeCols, insertCols_ok s _ vid _ hv hc]
      cases ok
      · exact ⟨rfl, trivial, rfl⟩
      · cases hd : distinctNames l <;> simp [answer, hd, core, Late]
    | _ => exact absurd hs (by simp [Still])
  | copy last vid =>
    cases op with
    | newVersion u v t ok =>
      obtain ⟨hv, hc⟩ := hs
      simp only [step, copyCols, insertCols_ok s _ vid _ hv hc]
      cases ok <;> exact ⟨rfl, trivial, rfl⟩
    | _ => exact absurd hs (by simp [Still])
  | done e => exact ⟨rfl, trivial, rfl⟩

/-! ### the order in which the operations take effect -/

/-- The operations of a schedule in the order of the calls that made them take effect. -/
def effects (ops : Nat → Op) (c : Conf) : List Nat → List Nat
  | [] => []
  | i :: rest =>
    let c' := call ops c i
    if ¬ Late (c.stage i) ∧ Late (c'.stage i) then i :: effects ops c' rest else effects ops c' rest

/-- Configuration `c` was reached from `s` by operations that took effect in the given order. -/
structure Reached (ops : Nat → Op) (s : Cat) (order : List Nat) (c : Conf) : Prop where
  wf : WF c.cat
  nodup : order.Nodup
  late : ∀ i, i ∈ order ↔ Late (c.stage i)
  cat : core c.cat = core (run s (order.map ops))
  ans : ∀ k i, order[k]? = some i → answer (ops i) (c.stage i) = (exec (run s ((order.take k).map ops)) (ops i)).2

theorem run_snoc (s : Cat) (l : List Op) (op : Op) : run s (l ++ [op]) = (exec (run s l) op).1 := by
  simp only [run, List.foldl_append, List.foldl_cons, List.foldl_nil]

theorem reached_call (ops : Nat → Op) (s : Cat) (order : List Nat) (c : Conf) (i : Nat) (h : Reached ops s order c)
    (hs : Still c.cat (ops i) (c.stage i)) :
    Reached ops s (if ¬ Late (c.stage i) ∧ Late ((call ops c i).stage i) then order ++ [i] else order) (call ops c i) := by
  have hi : (call ops c i).stage i = (step c.cat (ops i) (c.stage i)).2 := by simp [call]
  have hj : ∀ j, j ≠ i → (call ops c i).stage j = c.stage j := by intro j hj; simp [call, hj]
  have hwf : WF (call ops c i).cat := wf_step _ h.wf _ _
  have hc : (call ops c i).cat = (step c.cat (ops i) (c.stage i)).1 := rfl
  by_cases hl : Late (c.stage i)
  · obtain ⟨h1, h2, h3⟩ := step_late c.cat h.wf (ops i) (c.stage i) hs hl
    rw [if_neg (by simp [hl])]
    refine ⟨hwf, h.nodup, ?_, by rw [hc, h1, h.cat], ?_⟩
    · intro j
      by_cases e : j = i
      · subst e; rw [hi, h.late]; simp only [hl, h2]
      · rw [hj j e]; exact h.late j
    · intro k j hk
      rw [← h.ans k j hk]
      by_cases e : j = i
      · subst e; rw [hi, h3]
      · rw [hj j e]
  · rcases step_effect c.cat h.wf (ops i) (c.stage i) hs hl with ⟨h1, h2⟩ | ⟨h1, h2, h3⟩
    · rw [if_neg (by rw [hi]; simp [h2])]
      refine ⟨hwf, h.nodup, ?_, by rw [hc, h1, h.cat], ?_⟩
      · intro j
        by_cases e : j = i
        · subst e; rw [hi, h.late]; simp only [hl, h2]
        · rw [hj j e]; exact h.late j
      · intro k j hk
        have hjl : Late (c.stage j) := (h.late j).1 (List.mem_of_getElem? hk)
        have e : j ≠ i := by rintro rfl; exact hl hjl
        rw [← h.ans k j hk, hj j e]
    · rw [if_pos ⟨hl, by rw [hi]; exact h1⟩]
      have hin : i ∉ order := fun hm => hl ((h.late i).1 hm)
      obtain ⟨g1, g2⟩ := exec_core h.cat (ops i)
      refine ⟨hwf, ?_, ?_, ?_, ?_⟩
      · rw [List.nodup_append]
        refine ⟨h.nodup, by simp, ?_⟩
        intro a ha b hb e
        simp only [List.mem_singleton] at hb
        subst e hb
        exact hin ha
      · intro j
        by_cases e : j = i
        · subst e; rw [hi]; simp [h1]
        · rw [hj j e]; simp only [List.mem_append, List.mem_singleton, e, or_false]; exact h.late j
      · rw [hc, h2, List.map_append, List.map_cons, List.map_nil, run_snoc, g1]
      · intro k j hk
        rw [List.getElem?_append] at hk
        split at hk
        · next hlt =>
          have hjl : Late (c.stage j) := (h.late j).1 (List.mem_of_getElem? hk)
          have e : j ≠ i := by rintro rfl; exact hl hjl
          rw [hj j e, h.ans k j hk, List.take_append_of_le_length (by omega)]
        · next hge =>
          rw [List.getElem?_singleton] at hk
          split at hk
          · next hz =>
            cases hk
            have hk : k = order.length := by omega
            subst hk
            rw [hi, h3, List.take_left, g2]
          · cases hk

theorem reached (ops : Nat → Op) (s : Cat) (sch : List Nat) (order : List Nat) (c : Conf) (h : Reached ops s order c)
    (hu : Undisturbed ops c sch) : Reached ops s (order ++ effects ops c sch) (interleave ops c sch) := by
  induction sch generalizing order c with
  | nil => simpa [effects, interleave] using h
  | cons i rest ih =>
    obtain ⟨h1, h2⟩ := hu
    have := ih _ _ (reached_call ops s order c i h h1) h2
    simp only [effects, interleave, List.foldl_cons]
    split at this
    · next hx => rw [if_pos hx]; simpa [interleave] using this
    · next hx => rw [if_neg hx]; simpa [interleave] using this

theorem reached_initial (ops : Nat → Op) (s : Cat) (h : WF s) : Reached ops s [] (initial s) :=
  ⟨h, List.nodup_nil, by simp [initial, Late], rfl, by simp⟩

theorem effects_append (ops : Nat → Op) (c : Conf) (a b : List Nat) :
    effects ops c (a ++ b) = effects ops c a ++ effects ops (interleave ops c a) b := by
  induction a generalizing c with
  | nil => rfl
  | cons i a ih =>
    simp only [List.cons_append, effects, interleave, List.foldl_cons]
    split
    · rw [ih]; rfl
    · rw [ih]; rfl

theorem undisturbed_append (ops : Nat → Op) (c : Conf) (a b : List Nat) (h : Undisturbed ops c (a ++ b)) :
    Undisturbed ops c a := by
  induction a generalizing c with
  | nil => trivial
  | cons i a ih => exact ⟨h.1, ih _ h.2⟩

/-- **C127**, as far as it is true: if no operation is overtaken between its lookup and its change, the
operations take effect one after the other. -/
theorem C127_serial_partial (s : Cat) (h : WF s) (ops : Nat → Op) (sch : List Nat) (hu : Undisturbed ops (initial s) sch) :
    Serial s ops sch := by
  have hr := reached ops s sch [] (initial s) (reached_initial ops s h) hu
  rw [List.nil_append] at hr
  refine ⟨effects ops (initial s) sch, hr.nodup, hr.cat, ?_, ?_, ?_, ?_⟩
  · rintro i ⟨e, he⟩
    rw [hr.late, he]
    trivial
  · intro i hi he
    rw [hr.late, he] at hi
    exact hi
  · intro k i e hk he
    rw [← hr.ans k i hk, he]
    rfl
  · rintro a b rfl
    have ha := reached ops s a [] (initial s) (reached_initial ops s h) (undisturbed_append ops _ a b hu)
    rw [List.nil_append] at ha
    refine ⟨_, _, effects_append ops _ a b, ?_, ?_⟩
    · rintro i ⟨e, he⟩
      rw [ha.late, he]
      trivial
    · intro i hi hm
      rw [ha.late, hi] at hm
      exact hm

/-! ### operations that only add -/

/-- Operations that remove and rename no databases, schemas, tables or versions. -/
def Adds : Op → Prop
  | .createDb _ => True
  | .createSchema _ _ => True
  | .createTable _ _ _ _ _ _ _ => True
  | .newVersion _ _ _ _ => True
  | .createFunction _ _ _ _ => True
  | .deleteFunctions _ _ _ => True
  | _ => False

/-- The UUID of the table that an operation creates. -/
def createdUuid : Op → Option Nat
  | .createTable _ _ _ _ u _ _ => some u
  | _ => none

/-- The version whose columns are outstanding. -/
def pending : Stage → Option Nat
  | .cols vid => some vid
  | .copy _ vid => some vid
  | _ => none

theorem mono_db {s s' : Cat} (hd : ∀ d ∈ s.dbs, d ∈ s'.dbs) {n : String} {d : Db} (h : IsDb s n d) : IsDb s' n d := ⟨hd d h.1, h.2⟩

theorem mono_schema {s s' : Cat} (hd : ∀ d ∈ s.dbs, d ∈ s'.dbs) (hc : ∀ c ∈ s.colls, c ∈ s'.colls) {db n : String} {c : Coll}
    (h : IsSchema s db n c) : IsSchema s' db n c := by
  obtain ⟨h1, h2, d, h3, h4⟩ := h
  exact ⟨hc c h1, h2, d, mono_db hd h3, h4⟩

/-- What an operation holds stays so when rows are added. -/
theorem still_mono {s s' : Cat} (hd : ∀ d ∈ s.dbs, d ∈ s'.dbs) (hc : ∀ c ∈ s.colls, c ∈ s'.colls) (hv : ∀ v ∈ s.vers, v ∈ s'.vers)
    (op : Op) (st : Stage) (ha : Adds op) (ht : s'.tabs = s.tabs ∨ ∃ t, s'.tabs = s.tabs ++ [t] ∧ ∀ u ∈ s.tabs, t.uuid ≠ u.uuid)
    (hcol : ∀ vid, pending st = some vid → ∀ c ∈ s'.cols, c ∈ s.cols ∨ c.verId ≠ vid) (h : Still s op st) : Still s' op st := by
  have htm : ∀ t ∈ s.tabs, t ∈ s'.tabs := by
    intro t hm
    rcases ht with e | ⟨x, e, _⟩
    · rw [e]; exact hm
    · rw [e]; exact List.mem_append.2 (Or.inl hm)
  have hcs : ∀ vid, pending st = some vid → (∀ c ∈ s.cols, c.verId ≠ vid) → ∀ c ∈ s'.cols, c.verId ≠ vid := by
    intro vid hp h0 c hm
    rcases hcol vid hp c hm with h1 | h1
    · exact h0 c h1
    · exact h1
  cases st with
  | start => cases op <;> trivial
  | done e => cases op <;> trivial
  | held id =>
    cases op with
    | createSchema db n => obtain ⟨hn, d, h1, h2⟩ := h; exact ⟨hn, d, mono_db hd h1, h2⟩
    | createTable db sch n l u t ok => obtain ⟨hn, d, h1, h2⟩ := h; exact ⟨hn, d, mono_schema hd hc h1, h2⟩
    | createFunction db n o x => obtain ⟨d, h1, h2⟩ := h; exact ⟨d, mono_db hd h1, h2⟩
    | deleteFunctions db i ns => obtain ⟨d, h1, h2⟩ := h; exact ⟨d, mono_db hd h1, h2⟩
    | newVersion u v t ok =>
      obtain ⟨w, tb, h1, h2, h3, h4, h5, h6⟩ := h
      refine ⟨w, tb, hv w h1, h2, htm tb h3, h4, h5, ?_⟩
      intro x hx hxu
      rcases ht with e | ⟨y, e, hy⟩
      · rw [e] at hx; exact h6 x hx hxu
      · rw [e] at hx
        rcases List.mem_append.1 hx with hx | hx
        · exact h6 x hx hxu
        · simp only [List.mem_singleton] at hx
          subst hx
          exact absurd (hxu.trans h5.symm) (hy tb h3)
    | createDb n => exact absurd h (by simp [Still])
    | _ => exact absurd ha (by simp [Adds])
  | held2 id coll =>
    cases op with
    | renameTable db os on ns nn => exact absurd ha (by simp [Adds])
    | _ => exact absurd h (by simp [Still])
  | cols vid =>
    cases op with
    | createTable db sch n l u t ok =>
      obtain ⟨h0, ⟨v, h1, h2⟩, h3⟩ := h
      exact ⟨h0, ⟨v, hv v h1, h2⟩, hcs vid rfl h3⟩
    | _ => exact absurd h (by simp [Still])
  | copy last vid =>
    cases op with
    | newVersion u w t ok =>
      obtain ⟨⟨v, h1, h2⟩, h3⟩ := h
      exact ⟨⟨v, hv v h1, h2⟩, hcs vid rfl h3⟩
    | _ => exact absurd h (by simp [Still])

/-- What a call of an adding operation does to the rows. -/
structure Grown (s : Cat) (op : Op) (st : Stage) (s' : Cat) (st' : Stage) : Prop where
  dbs : ∀ d ∈ s.dbs, d ∈ s'.dbs
  colls : ∀ c ∈ s.colls, c ∈ s'.colls
  vers : ∀ v ∈ s.vers, v ∈ s'.vers
  tabs : s'.tabs = s.tabs ∨ (¬ Late st ∧ Late st' ∧ ∃ t, s'.tabs = s.tabs ++ [t] ∧ createdUuid op = some t.uuid)
  cols : ∀ c ∈ s'.cols, c ∈ s.cols ∨ pending st = some c.verId
  fresh : ∀ vid, pending st' = some vid → ∀ v ∈ s.vers, v.id ≠ vid
  late : Late st → Late st'
  still : Still s' op st'

theorem grown_same (s : Cat) (op : Op) (st st' : Stage) (hp : pending st' = none) (hl : Late st → Late st') (h : Still s op st') :
    Grown s op st s st' :=
  ⟨fun _ h => h, fun _ h => h, fun _ h => h, Or.inl rfl, fun _ h => Or.inl h, by simp [hp], hl, h⟩

theorem still_done (s : Cat) (op : Op) (e : Option CatErr) : Still s op (.done e) := by cases op <;> trivial

theorem grown_start (s : Cat) (h : WF s) (hu : s.tabs.Pairwise (fun a b => a.uuid ≠ b.uuid)) (op : Op) (ha : Adds op) :
    Grown s op .start (first s op).1 (first s op).2 := by
  cases op with
  | createDb n =>
    simp only [first, repoCreateDb]
    cases s.dbs.any (·.name == n) with
    | true => exact grown_same s _ _ _ rfl (fun h => h.elim) (still_done _ _ _)
    | false =>
      exact ⟨fun d hd => List.mem_append.2 (Or.inl hd), fun _ h => h, fun _ h => h, Or.inl rfl, fun _ h => Or.inl h,
        by simp [pending], fun h => h.elim, still_done _ _ _⟩
  | createSchema db n =>
    simp only [first]
    split
    · exact grown_same s _ _ _ rfl (fun h => h.elim) (still_done _ _ _)
    · next hn =>
      rcases getDb_cases s db with ⟨d, hd, e⟩ | ⟨hd, e⟩
      · rw [e]; exact grown_same s _ _ _ rfl (fun h => h.elim) ⟨hn, d, hd, rfl⟩
      · rw [e]; exact grown_same s _ _ _ rfl (fun h => h.elim) (still_done _ _ _)
  | createTable db sch n l u t ok =>
    simp only [first]
    by_cases hn : sch = staging
    · simp only [getSchema, if_pos hn]; exact grown_same s _ _ _ rfl (fun h => h.elim) (still_done _ _ _)
    · rcases getSchema_cases s db sch hn with ⟨d, hd, e⟩ | ⟨hd, e⟩
      · rw [e]; exact grown_same s _ _ _ rfl (fun h => h.elim) ⟨hn, d, hd, rfl⟩
      · rw [e]; exact grown_same s _ _ _ rfl (fun h => h.elim) (still_done _ _ _)
  | newVersion u v t ok =>
    simp only [first]
    cases hl : lastVersion s u with
    | none => exact grown_same s _ _ _ rfl (fun h => h.elim) (still_done _ _ _)
    | some last =>
      refine grown_same s _ _ _ rfl (fun h => h.elim) ?_
      simp only [lastVersion, maxOf_some, List.mem_map, List.mem_filter, List.any_eq_true, Bool.and_eq_true, beq_iff_eq] at hl
      obtain ⟨⟨w, ⟨hw, tb, h1, h2, h3⟩, rfl⟩, _⟩ := hl
      exact ⟨w, tb, hw, rfl, h1, h2, h3, fun x hx hxu => eq_of_pairwise hu hx h1 (by simp [hxu, h3]) (by simp [hxu, h3])⟩
  | createFunction db n o x =>
    simp only [first]
    rcases getDb_cases s db with ⟨d, hd, e⟩ | ⟨hd, e⟩
    · rw [e]; exact grown_same s _ _ _ rfl (fun h => h.elim) ⟨d, hd, rfl⟩
    · rw [e]; exact grown_same s _ _ _ rfl (fun h => h.elim) (still_done _ _ _)
  | deleteFunctions db i ns =>
    simp only [first]
    rcases getDb_cases s db with ⟨d, hd, e⟩ | ⟨hd, e⟩
    · rw [e]; exact grown_same s _ _ _ rfl (fun h => h.elim) ⟨d, hd, rfl⟩
    · rw [e]; exact grown_same s _ _ _ rfl (fun h => h.elim) (still_done _ _ _)
  | _ => exact absurd ha (by simp [Adds])

theorem grown_held (s : Cat) (h : WF s) (op : Op) (ha : Adds op) (id : Nat) (hs : Still s op (.held id)) :
    Grown s op (.held id) (second s id op).1 (second s id op).2 := by
  have fresh : ∀ v ∈ s.vers, v.id ≠ newId (s.vers.map (·.id)) := by
    intro v hv e
    have := lt_newId_map (fun x => x.id) hv
    omega
  have nocols : ∀ c ∈ s.cols, c.verId ≠ newId (s.vers.map (·.id)) := by
    intro c hc
    obtain ⟨v, hv, e⟩ := h.colParent c hc
    rw [← e]
    exact fresh v hv
  cases op with
  | createDb n => exact absurd hs (by simp [Still])
  | createSchema db n =>
    simp only [second, repoCreateColl]
    cases s.colls.any (fun c => c.name == n && c.dbId == id) with
    | true => exact grown_same s _ _ _ rfl (fun h => h.elim) (still_done _ _ _)
    | false =>
      cases s.dbs.any (·.id == id) with
      | false => exact grown_same s _ _ _ rfl (fun h => h.elim) (still_done _ _ _)
      | true =>
        exact ⟨fun _ h => h, fun d hd => List.mem_append.2 (Or.inl hd), fun _ h => h, Or.inl rfl, fun _ h => Or.inl h,
          by simp [pending], fun h => h.elim, still_done _ _ _⟩
  | createTable db sch n l u t ok =>
    simp only [second, insertTab]
    cases s.tabs.any (fun t => t.name == n && t.collId == id) with
    | true => exact grown_same s _ _ _ rfl (fun h => h.elim) (still_done _ _ _)
    | false =>
      cases s.colls.any (·.id == id) with
      | false => exact grown_same s _ _ _ rfl (fun h => h.elim) (still_done _ _ _)
      | true =>
        cases l with
        | nil =>
          exact ⟨fun _ h => h, fun _ h => h, fun d hd => List.mem_append.2 (Or.inl hd),
            Or.inr ⟨fun h => h, trivial, _, rfl, rfl⟩, fun _ h => Or.inl h, by simp [pending], fun h => h.elim, still_done _ _ _⟩
        | cons a l =>
          refine ⟨fun _ h => h, fun _ h => h, fun d hd => List.mem_append.2 (Or.inl hd),
            Or.inr ⟨fun h => h, trivial, _, rfl, rfl⟩, fun _ h => Or.inl h, ?_, fun h => h.elim, ?_⟩
          · intro vid hv
            cases hv
            exact fresh
          · exact ⟨by simp, ⟨_, List.mem_append.2 (Or.inr (List.mem_singleton.2 rfl)), rfl⟩, nocols⟩
  | newVersion u v t ok =>
    obtain ⟨w, tb, hw, rfl, h1, h2, h3, h4⟩ := hs
    simp only [second, insertVer, find_ver h hw]
    refine ⟨fun _ h => h, fun _ h => h, fun d hd => List.mem_append.2 (Or.inl hd), Or.inl rfl, fun _ h => Or.inl h, ?_,
      fun h => h.elim, ?_⟩
    · intro vid hv
      cases hv
      exact fresh
    · exact ⟨⟨_, List.mem_append.2 (Or.inr (List.mem_singleton.2 rfl)), rfl⟩, nocols⟩
  | createFunction db n o x =>
    simp only [second, repoCreateFn]
    cases s.fns.find? (fun f => f.name == n && f.dbId == id) with
    | some f =>
      cases o with
      | false => exact grown_same s _ _ _ rfl (fun h => h.elim) (still_done _ _ _)
      | true =>
        exact ⟨fun _ h => h, fun _ h => h, fun _ h => h, Or.inl rfl, fun _ h => Or.inl h,
          by simp [pending], fun h => h.elim, still_done _ _ _⟩
    | none =>
      cases s.dbs.any (·.id == id) with
      | false => exact grown_same s _ _ _ rfl (fun h => h.elim) (still_done _ _ _)
      | true =>
        exact ⟨fun _ h => h, fun _ h => h, fun _ h => h, Or.inl rfl, fun _ h => Or.inl h,
          by simp [pending], fun h => h.elim, still_done _ _ _⟩
  | deleteFunctions db i ns =>
    simp only [second, repoDropFn]
    cases s.fns.any (fun f => f.dbId == id && (ns.map (fun _ => ns.head?)).contains (some f.name)) with
    | true =>
      exact ⟨fun _ h => h, fun _ h => h, fun _ h => h, Or.inl rfl, fun _ h => Or.inl h,
          by simp [pending], fun h => h.elim, still_done _ _ _⟩
    | false => exact grown_same s _ _ _ rfl (fun h => h.elim) (still_done _ _ _)
  | _ => exact absurd ha (by simp [Adds])

theorem grown_step (s : Cat) (h : WF s) (hu : s.tabs.Pairwise (fun a b => a.uuid ≠ b.uuid)) (op : Op) (ha : Adds op) (st : Stage)
    (hs : Still s op st) : Grown s op st (step s op st).1 (step s op st).2 := by
  cases st with
  | start => exact grown_start s h hu op ha
  | held id => exact grown_held s h op ha id hs
  | held2 id coll =>
    cases op with
    | renameTable db os on ns nn => exact absurd ha (by simp [Adds])
    | _ => exact absurd hs (by simp [Still])
  | cols vid =>
    cases op with
    | createTable db sch n l u t ok =>
      obtain ⟨_, hv, hc⟩ := hs
      simp only [step, writeCols, insertCols_ok s _ vid _ hv hc]
      cases ok with
      | false => exact grown_same s _ _ _ rfl (fun _ => trivial) (still_done _ _ _)
      | true =>
        cases distinctNames l with
        | false => exact grown_same s _ _ _ rfl (fun _ => trivial) (still_done _ _ _)
        | true =>
          refine ⟨fun _ h => h, fun _ h => h, fun _ h => h, Or.inl rfl, ?_, by simp [pending], fun _ => trivial, still_done _ _ _⟩
          intro c hm
          rcases List.mem_append.1 hm with hm | hm
          · exact Or.inl hm
          · obtain ⟨x, _, rfl⟩ := List.mem_map.1 hm
            exact Or.inr rfl
    | _ => exact absurd hs (by simp [Still])
  | copy last vid =>
    cases op with
    | newVersion u v t ok =>
      obtain ⟨hv, hc⟩ := hs
      simp only [step, copyCols, insertCols_ok s _ vid _ hv hc]
      cases ok with
      | false => exact grown_same s _ _ _ rfl (fun _ => trivial) (still_done _ _ _)
      | true =>
        refine ⟨fun _ h => h, fun _ h => h, fun _ h => h, Or.inl rfl, ?_, by simp [pending], fun _ => trivial, still_done _ _ _⟩
        intro c hm
        rcases List.mem_append.1 hm with hm | hm
        · exact Or.inl hm
        · obtain ⟨x, _, rfl⟩ := List.mem_map.1 hm
          exact Or.inr rfl
    | _ => exact absurd hs (by simp [Still])
  | done e => exact grown_same s _ _ _ rfl (fun _ => trivial) (still_done _ _ _)

/-- The invariant of adding operations. -/
structure Adding (ops : Nat → Op) (c : Conf) : Prop where
  wf : WF c.cat
  uuids : c.cat.tabs.Pairwise (fun a b => a.uuid ≠ b.uuid)
  new : ∀ i, ¬ Late (c.stage i) → ∀ t ∈ c.cat.tabs, createdUuid (ops i) ≠ some t.uuid
  still : ∀ i, Still c.cat (ops i) (c.stage i)
  apart : ∀ i j vid, pending (c.stage i) = some vid → pending (c.stage j) = some vid → i = j

theorem pending_ver {s : Cat} {op : Op} {st : Stage} (h : Still s op st) {vid : Nat} (hp : pending st = some vid) :
    ∃ v ∈ s.vers, v.id = vid := by
  cases st with
  | cols x =>
    cases hp
    cases op with
    | createTable db sch n l u t ok => exact h.2.1
    | _ => exact absurd h (by simp [Still])
  | copy last x =>
    cases hp
    cases op with
    | newVersion u v t ok => exact h.1
    | _ => exact absurd h (by simp [Still])
  | _ => cases hp

theorem adding_call (ops : Nat → Op) (ha : ∀ i, Adds (ops i))
    (hu : ∀ i j u, createdUuid (ops i) = some u → createdUuid (ops j) = some u → i = j) (c : Conf) (h : Adding ops c) (i : Nat) :
    Adding ops (call ops c i) := by
  have g := grown_step c.cat h.wf h.uuids (ops i) (ha i) (c.stage i) (h.still i)
  have hi : (call ops c i).stage i = (step c.cat (ops i) (c.stage i)).2 := by simp [call]
  have hj : ∀ j, j ≠ i → (call ops c i).stage j = c.stage j := by intro j hj; simp [call, hj]
  have hc : (call ops c i).cat = (step c.cat (ops i) (c.stage i)).1 := rfl
  rw [← hi, ← hc] at g
  have hnew : ∀ t : Tab, ¬ Late (c.stage i) → createdUuid (ops i) = some t.uuid → ∀ u ∈ c.cat.tabs, t.uuid ≠ u.uuid := by
    intro t hl hcu u hum e
    exact h.new i hl u hum (by rw [hcu, e])
  refine ⟨wf_step _ h.wf _ _, ?_, ?_, ?_, ?_⟩
  · rcases g.tabs with e | ⟨hl, _, t, e, hcu⟩
    · rw [e]; exact h.uuids
    · rw [e]
      exact pairwise_snoc h.uuids (fun b hb e => hnew t hl hcu b hb e.symm)
  · intro j hl t ht e
    by_cases hji : j = i
    · subst hji
      have hl0 : ¬ Late (c.stage j) := fun hx => hl (g.late hx)
      rcases g.tabs with e' | ⟨_, hl', _⟩
      · rw [e'] at ht; exact h.new j hl0 t ht e
      · exact hl hl'
    · rw [hj j hji] at hl
      rcases g.tabs with e' | ⟨_, _, t', e', hcu⟩
      · rw [e'] at ht; exact h.new j hl t ht e
      · rw [e'] at ht
        rcases List.mem_append.1 ht with ht | ht
        · exact h.new j hl t ht e
        · simp only [List.mem_singleton] at ht
          subst ht
          exact hji (hu j i _ e hcu)
  · intro j
    by_cases hji : j = i
    · subst hji; exact g.still
    · rw [hj j hji]
      refine still_mono g.dbs g.colls g.vers (ops j) (c.stage j) (ha j) ?_ ?_ (h.still j)
      · rcases g.tabs with e | ⟨hl, _, t, e, hcu⟩
        · exact Or.inl e
        · exact Or.inr ⟨t, e, hnew t hl hcu⟩
      · intro vid hp x hx
        rcases g.cols x hx with h1 | h1
        · exact Or.inl h1
        · right
          rintro rfl
          exact hji (h.apart j i _ hp h1)
  · intro a b vid hpa hpb
    by_cases hai : a = i
    · by_cases hbi : b = i
      · rw [hai, hbi]
      · subst hai
        rw [hj b hbi] at hpb
        obtain ⟨v, hv, e⟩ := pending_ver (h.still b) hpb
        exact absurd e (g.fresh vid hpa v hv)
    · by_cases hbi : b = i
      · subst hbi
        rw [hj a hai] at hpa
        obtain ⟨v, hv, e⟩ := pending_ver (h.still a) hpa
        exact absurd e (g.fresh vid hpb v hv)
      · rw [hj a hai] at hpa
        rw [hj b hbi] at hpb
        exact h.apart a b vid hpa hpb

theorem adding_undisturbed (ops : Nat → Op) (ha : ∀ i, Adds (ops i))
    (hu : ∀ i j u, createdUuid (ops i) = some u → createdUuid (ops j) = some u → i = j) (sch : List Nat) (c : Conf) (h : Adding ops c) :
    Undisturbed ops c sch := by
  induction sch generalizing c with
  | nil => trivial
  | cons i rest ih => exact ⟨h.still i, ih _ (adding_call ops ha hu c h i)⟩

/-- **C127** for any number of concurrent `CREATE SCHEMA`, `CREATE TABLE`, `CREATE FUNCTION` and
`DROP FUNCTION` statements and writes to tables: in every schedule they take effect one after the other. (Each
`CREATE TABLE` draws a new UUID.) -/
theorem C127_creations (s : Cat) (h : WF s) (ops : Nat → Op) (ha : ∀ i, Adds (ops i))
    (h1 : s.tabs.Pairwise (fun a b => a.uuid ≠ b.uuid)) (h2 : ∀ i, ∀ t ∈ s.tabs, createdUuid (ops i) ≠ some t.uuid)
    (h3 : ∀ i j u, createdUuid (ops i) = some u → createdUuid (ops j) = some u → i = j) (sch : List Nat) :
    Serial s ops sch := by
  refine C127_serial_partial s h ops sch ?_
  refine adding_undisturbed ops ha h3 sch _ ⟨h, h1, fun i _ => h2 i, ?_, ?_⟩
  · intro i
    simp only [initial]
    cases ops i <;> trivial
  · intro i j vid hp
    cases hp

/-! ### an operation alone -/

/-- With nobody else there, the calls of an operation do what the operation does as a whole, columns included. -/
theorem C127_alone (s : Cat) (h : WF s) (op : Op) :
    (interleave (fun _ => op) (initial s) [0, 0, 0]).cat = (exec s op).1 ∧
      (interleave (fun _ => op) (initial s) [0, 0, 0]).stage 0 = .done (exec s op).2 := by
  have key : ∀ x : Cat × Option CatErr,
      (∃ st1 st2 s1 s2, step s op .start = (s1, st1) ∧ step s1 op st1 = (s2, st2) ∧ step s2 op st2 = (x.1, .done x.2)) →
      (interleave (fun _ => op) (initial s) [0, 0, 0]).cat = x.1 ∧
        (interleave (fun _ => op) (initial s) [0, 0, 0]).stage 0 = .done x.2 := by
    rintro x ⟨st1, st2, s1, s2, h1, h2, h3⟩
    simp [interleave, call, initial, h1, h2, h3]
  apply key
  have fresh : ∀ c ∈ s.cols, c.verId ≠ newId (s.vers.map (·.id)) := by
    intro c hc e
    obtain ⟨v, hv, e2⟩ := h.colParent c hc
    have := lt_newId_map (fun x => x.id) hv
    omega
  have two : ∀ id, first s op = (s, .held id) → second s id op = ((exec s op).1, .done (exec s op).2) →
      ∃ st1 st2 s1 s2, step s op .start = (s1, st1) ∧ step s1 op st1 = (s2, st2) ∧
        step s2 op st2 = ((exec s op).1, .done (exec s op).2) := by
    rintro id h1 h2
    exact ⟨_, _, _, _, h1, h2, rfl⟩
  have one : first s op = ((exec s op).1, .done (exec s op).2) →
      ∃ st1 st2 s1 s2, step s op .start = (s1, st1) ∧ step s1 op st1 = (s2, st2) ∧
        step s2 op st2 = ((exec s op).1, .done (exec s op).2) := by
    intro h1
    exact ⟨_, _, _, _, h1, rfl, rfl⟩
  cases op with
  | createDb n =>
    rcases hr : repoCreateDb s n with ⟨a, (_ | _ | _ | _) | _⟩ <;>
      exact one (by simp only [first, hr, exec, createDb, hr, errOf])
  | deleteDb n =>
    cases hg : getDb s n with
    | error e => exact one (by simp only [first, hg, heldOf, exec, deleteDb, hg, errOf])
    | ok d =>
      refine two d.id (by simp only [first, hg, heldOf]) ?_
      rcases hr : repoDeleteDb s d.id with ⟨a, (_ | _ | _ | _) | _⟩ <;>
        simp only [second, hr, exec, deleteDb, hg, hr, errOf]
  | createSchema db n =>
    by_cases hn : n = staging
    · exact one (by simp only [first, if_pos hn, exec, createSchema, if_pos hn, errOf])
    · cases hg : getDb s db with
      | error e => exact one (by simp only [first, if_neg hn, hg, heldOf, exec, createSchema, if_neg hn, hg, errOf])
      | ok d =>
        refine two d.id (by simp only [first, if_neg hn, hg, heldOf]) ?_
        rcases hr : repoCreateColl s d.id n with ⟨a, (_ | _ | _ | _) | _⟩ <;>
          simp only [second, hr, exec, createSchema, if_neg hn, hg, hr, errOf]
  | deleteSchema db n =>
    cases hg : getSchema s db n with
    | error e => exact one (by simp only [first, hg, heldOf, exec, deleteSchema, hg, errOf])
    | ok d =>
      refine two d.id (by simp only [first, hg, heldOf]) ?_
      rcases hr : repoDeleteColl s d.id with ⟨a, (_ | _ | _ | _) | _⟩ <;>
        simp only [second, hr, exec, deleteSchema, hg, hr, errOf]
  | createTable db sch n l u t ok =>
    cases hg : getSchema s db sch with
    | error e => exact one (by simp only [first, hg, heldOf, exec, createTable, hg, errOf])
    | ok d =>
      have hf : first s (.createTable db sch n l u t ok) = (s, .held d.id) := by simp only [first, hg, heldOf]
      cases h1 : s.tabs.any (fun t => t.name == n && t.collId == d.id) with
      | true =>
        exact two d.id hf (by simp only [second, insertTab, h1, if_true, exec, createTable, hg, repoCreateTab, errOf])
      | false =>
        cases h2 : s.colls.any (·.id == d.id) with
        | false =>
          exact two d.id hf (by simp [second, insertTab, h1, h2, exec, createTable, hg, repoCreateTab, h1, h2, errOf])
        | true =>
          cases l with
          | nil =>
            exact two d.id hf (by simp [second, insertTab, h1, h2, exec, createTable, hg, repoCreateTab, h1, h2, errOf])
          | cons x l =>
            refine ⟨_, .cols (newId (s.vers.map (·.id))), _, _, hf, by
              simp only [step, second, insertTab, h1, h2]
              rfl, ?_⟩
            simp only [step, writeCols]
            cases ok with
            | false => simp [exec, createTable, hg, repoCreateTab, h1, h2, errOf, genericErr]
            | true =>
              rw [insertCols_ok _ _ (newId (s.vers.map (·.id))) _ ?_ ?_]
              · cases hd : distinctNames (x :: l) <;>
                  simp [exec, createTable, hg, repoCreateTab, h1, h2, hd, errOf, genericErr]
              · exact ⟨_, List.mem_append.2 (Or.inr (List.mem_singleton.2 rfl)), rfl⟩
              · exact fresh
  | newVersion u v t ok =>
    cases hl : lastVersion s u with
    | none =>
      exact one (by simp only [first, hl, exec, newVersion, repoNewVersion, hl, errOf, genericErr])
    | some last =>
      have hf : first s (.newVersion u v t ok) = (s, .held last) := by simp only [first, hl]
      cases hv : s.vers.find? (·.id == last) with
      | none =>
        exact two last hf (by simp only [second, insertVer, hv, exec, newVersion, repoNewVersion, hl, hv, errOf])
      | some w =>
        refine ⟨_, .copy last (newId (s.vers.map (·.id))), _, _, hf, by
          simp only [step, second, insertVer, hv]
          rfl, ?_⟩
        simp only [step, copyCols]
        cases ok with
        | false => simp [exec, newVersion, repoNewVersion, hl, hv, errOf, genericErr]
        | true =>
          rw [insertCols_ok _ _ (newId (s.vers.map (·.id))) _ ?_ ?_]
          · simp [exec, newVersion, repoNewVersion, hl, hv, errOf, genericErr]
          · exact ⟨_, List.mem_append.2 (Or.inr (List.mem_singleton.2 rfl)), rfl⟩
          · exact fresh
  | deleteOldVersions db sch n =>
    cases hg : getTable s db sch n with
    | error e => exact one (by simp only [first, hg, heldOf, exec, deleteOldVersions, hg, errOf])
    | ok d =>
      exact two d.id (by simp only [first, hg, heldOf]) (by simp only [second, exec, deleteOldVersions, hg, errOf])
  | renameTable db os on ns nn =>
    cases hg : getTable s db os on with
    | error e => exact one (by simp only [first, hg, heldOf, exec, renameTable, hg, errOf])
    | ok d =>
      have hf : first s (.renameTable db os on ns nn) = (s, .held d.id) := by simp only [first, hg, heldOf]
      by_cases hn : ns ≠ os
      · cases hc : getSchema s db ns with
        | error e =>
          exact two d.id hf (by simp only [second, if_pos hn, hc, exec, renameTable, hg, if_pos hn, hc, errOf])
        | ok c =>
          refine ⟨_, .held2 d.id c.id, _, s, hf, by simp only [step, second, if_pos hn, hc], ?_⟩
          simp only [step, rename, exec, renameTable, hg, if_pos hn, hc]
          rcases repoRename s d.id nn (some c.id) with ⟨a, (_ | _ | _ | _) | _⟩ <;> rfl
      · refine two d.id hf ?_
        rcases hr : repoRename s d.id nn none with ⟨a, (_ | _ | _ | _) | _⟩ <;>
          simp only [second, if_neg hn, rename, hr, exec, renameTable, hg, if_neg hn, hr, errOf]
  | deleteTable db sch n =>
    cases hg : getTable s db sch n with
    | error e => exact one (by simp only [first, hg, heldOf, exec, deleteTable, hg, errOf])
    | ok d =>
      refine two d.id (by simp only [first, hg, heldOf]) ?_
      rcases hr : repoDeleteTab s d.id with ⟨a, (_ | _ | _ | _) | _⟩ <;>
        simp only [second, hr, exec, deleteTable, hg, hr, errOf]
  | createFunction db n o x =>
    cases hg : getDb s db with
    | error e => exact one (by simp only [first, hg, heldOf, exec, createFunction, hg, errOf])
    | ok d =>
      refine two d.id (by simp only [first, hg, heldOf]) ?_
      rcases hr : repoCreateFn s d.id n o x with ⟨a, (_ | _ | _ | _) | _⟩ <;>
        simp only [second, hr, exec, createFunction, hg, hr, errOf]
  | deleteFunctions db i ns =>
    cases hg : getDb s db with
    | error e => exact one (by simp only [first, hg, heldOf, exec, deleteFunctions, hg, errOf])
    | ok d =>
      refine two d.id (by simp only [first, hg, heldOf]) ?_
      rcases hr : repoDropFn s d.id ns with ⟨a, (_ | _ | _ | _) | _⟩ <;>
        cases i <;> simp [second, hr, exec, deleteFunctions, hg, errOf]

/-! ### one of several creations of a name succeeds -/

theorem adds_keeps (s : Cat) (op : Op) (ha : Adds op) :
    (∀ d ∈ s.dbs, d ∈ (exec s op).1.dbs) ∧ (∀ c ∈ s.colls, c ∈ (exec s op).1.colls) ∧ (∀ t ∈ s.tabs, t ∈ (exec s op).1.tabs) := by
  have same : ∀ s' : Cat, s' = s → (∀ d ∈ s.dbs, d ∈ s'.dbs) ∧ (∀ c ∈ s.colls, c ∈ s'.colls) ∧ (∀ t ∈ s.tabs, t ∈ s'.tabs) := by
    rintro s' rfl
    exact ⟨fun _ h => h, fun _ h => h, fun _ h => h⟩
  have snoc : ∀ {α : Type} (l : List α) (a : α), ∀ x ∈ l, x ∈ l ++ [a] := fun l a x h => List.mem_append.2 (Or.inl h)
  cases op with
  | createDb n =>
    simp only [exec, fst_createDb, repoCreateDb]
    split
    · exact same s rfl
    · exact ⟨snoc _ _, fun _ h => h, fun _ h => h⟩
  | createSchema db n =>
    simp only [exec]
    rcases fst_createSchema s db n with e | ⟨id, e⟩
    · exact same _ e
    · rw [e]
      simp only [repoCreateColl]
      split
      · exact same s rfl
      · split
        · exact same s rfl
        · exact ⟨fun _ h => h, snoc _ _, fun _ h => h⟩
  | createTable db sch n l u t ok =>
    simp only [exec]
    rcases fst_createTable s db sch n l u t ok with e | ⟨id, e⟩
    · exact same _ e
    · rw [e]
      simp only [repoCreateTab]
      split
      · exact same s rfl
      · split
        · exact same s rfl
        · split
          · exact ⟨fun _ h => h, fun _ h => h, snoc _ _⟩
          · split
            · exact ⟨fun _ h => h, fun _ h => h, snoc _ _⟩
            · split <;> exact ⟨fun _ h => h, fun _ h => h, snoc _ _⟩
  | newVersion u v t ok =>
    simp only [exec, fst_newVersion, repoNewVersion]
    split
    · exact same s rfl
    · split
      · exact same s rfl
      · split <;> exact ⟨fun _ h => h, fun _ h => h, fun _ h => h⟩
  | createFunction db n o x =>
    simp only [exec]
    rcases fst_createFunction s db n o x with e | ⟨id, e⟩
    · exact same _ e
    · rw [e]
      simp only [repoCreateFn]
      split
      · split <;> exact ⟨fun _ h => h, fun _ h => h, fun _ h => h⟩
      · split <;> exact ⟨fun _ h => h, fun _ h => h, fun _ h => h⟩
  | deleteFunctions db i ns =>
    simp only [exec]
    rcases fst_deleteFunctions s db i ns with e | ⟨id, e⟩
    · exact same _ e
    · rw [e]
      simp only [repoDropFn]
      split <;> exact ⟨fun _ h => h, fun _ h => h, fun _ h => h⟩
  | _ => exact absurd ha (by simp [Adds])

theorem adds_table (s : Cat) (ops : List Op) (ha : ∀ op ∈ ops, Adds op) {db sch n : String} {t : Tab} (h : IsTable s db sch n t) :
    IsTable (run s ops) db sch n t := by
  induction ops generalizing s with
  | nil => exact h
  | cons op ops ih =>
    obtain ⟨h1, h2, h3⟩ := adds_keeps s op (ha op (by simp))
    obtain ⟨g1, g2, c, g3, g4⟩ := h
    exact ih _ (fun o ho => ha o (List.mem_cons_of_mem _ ho)) ⟨h3 t g1, g2, c, mono_schema h1 h2 g3, g4⟩

theorem created (s : Cat) (h : WF s) (db sch n : String) (l : List (String × String)) (u : Nat) (t : Int) (ok : Bool)
    (he : (exec s (.createTable db sch n l u t ok)).2 = none) :
    sch ≠ staging ∧ (∀ t, ¬ IsTable s db sch n t) ∧ ∃ tb, IsTable (exec s (.createTable db sch n l u t ok)).1 db sch n tb := by
  obtain ⟨h1, h2, h3, h4⟩ := C32_createTable s h db sch n l u t ok
  simp only [exec] at he ⊢
  by_cases hn : sch = staging
  · rw [h1 hn] at he; cases he
  · by_cases hs : ∃ c, IsSchema s db sch c
    · by_cases ht : ∃ tb, IsTable s db sch n tb
      · rw [h3 hn ht] at he; cases he
      · have hno : ∀ tb, ¬ IsTable s db sch n tb := fun tb hx => ht ⟨tb, hx⟩
        refine ⟨hn, hno, ?_⟩
        by_cases hc : l = [] ∨ (ok = true ∧ distinctNames l = true)
        · obtain ⟨_, tb, h5, _⟩ := h4 hn hs hno hc
          exact ⟨tb, h5⟩
        · exfalso
          simp only [not_or, not_and, Bool.not_eq_true] at hc
          obtain ⟨c, hcs⟩ := hs
          have hany : s.tabs.any (fun t => t.name == n && t.collId == c.id) = false := by
            rw [List.any_eq_false]
            intro t ht' e
            simp only [Bool.and_eq_true, beq_iff_eq] at e
            exact hno t ⟨ht', e.1, c, hcs, e.2.symm⟩
          have hfk : s.colls.any (·.id == c.id) = true := List.any_eq_true.2 ⟨c, hcs.1, by simp⟩
          have hl : l.isEmpty = false := by cases l <;> simp_all
          simp only [createTable, getSchema_of h hn hcs, repoCreateTab, hany, hfk, hl] at he
          cases ok with
          | false => simp [errOf] at he
          | true => simp [hc.2 rfl, errOf] at he
    · rw [h2 hn (fun c hc => hs ⟨c, hc⟩)] at he; cases he

/-- **C127** (creation): of any number of concurrent `CREATE TABLE` statements for the same name, at most one
succeeds. -/
theorem C127_one_creator (s : Cat) (h : WF s) (ops : Nat → Op) (ha : ∀ i, Adds (ops i))
    (h1 : s.tabs.Pairwise (fun a b => a.uuid ≠ b.uuid)) (h2 : ∀ i, ∀ t ∈ s.tabs, createdUuid (ops i) ≠ some t.uuid)
    (h3 : ∀ i j u, createdUuid (ops i) = some u → createdUuid (ops j) = some u → i = j) (sch : List Nat)
    (i j : Nat) (db sc n : String) (l l' : List (String × String)) (u u' : Nat) (t t' : Int) (ok ok' : Bool)
    (hi : ops i = .createTable db sc n l u t ok) (hj : ops j = .createTable db sc n l' u' t' ok')
    (ei : (interleave ops (initial s) sch).stage i = .done none) (ej : (interleave ops (initial s) sch).stage j = .done none) :
    i = j := by
  obtain ⟨order, _, _, hfin, _, hans, _⟩ := C127_creations s h ops ha h1 h2 h3 sch
  have main : ∀ (a b : Nat) (l l' : List (String × String)) (u u' : Nat) (t t' : Int) (ok ok' : Bool) (ka kb : Nat),
      ops a = .createTable db sc n l u t ok → ops b = .createTable db sc n l' u' t' ok' →
      (interleave ops (initial s) sch).stage a = .done none → (interleave ops (initial s) sch).stage b = .done none →
      order[ka]? = some a → order[kb]? = some b → ka < kb → False := by
    intro a b l l' u u' t t' ok ok' ka kb ha' hb' ea eb hka hkb hlt
    have xa := hans ka a none hka ea
    have xb := hans kb b none hkb eb
    rw [ha'] at xa
    rw [hb'] at xb
    obtain ⟨_, _, tb, htb⟩ := created _ (wf_run s h _) _ _ _ _ _ _ _ xa
    obtain ⟨_, hno, _⟩ := created _ (wf_run s h _) _ _ _ _ _ _ _ xb
    refine hno tb ?_
    have hsplit : order.take kb = order.take ka ++ [a] ++ (order.drop (ka + 1)).take (kb - (ka + 1)) := by
      have e1 : order.take kb = (order.take kb).take (ka + 1) ++ (order.take kb).drop (ka + 1) := (List.take_append_drop _ _).symm
      rw [e1, List.take_take, Nat.min_eq_left (by omega), List.drop_take]
      congr 1
      obtain ⟨hk1, hk2⟩ := List.getElem?_eq_some_iff.1 hka
      rw [← hk2]
      exact List.take_succ_eq_append_getElem hk1
    rw [hsplit, List.map_append, List.map_append, List.map_cons, List.map_nil]
    simp only [run, List.foldl_append, List.foldl_cons, List.foldl_nil]
    rw [← ha'] at htb
    exact adds_table _ _ (by intro op hop; obtain ⟨x, _, rfl⟩ := List.mem_map.1 hop; exact ha x) htb
  obtain ⟨ki, hki⟩ := List.getElem?_of_mem (hfin i ⟨_, ei⟩)
  obtain ⟨kj, hkj⟩ := List.getElem?_of_mem (hfin j ⟨_, ej⟩)
  rcases Nat.lt_trichotomy ki kj with hlt | heq | hgt
  · exact (main i j l l' u u' t t' ok ok' ki kj hi hj ei ej hki hkj hlt).elim
  · rw [heq, hkj] at hki; cases hki; rfl
  · exact (main j i l' l u' u t' t ok' ok kj ki hj hi ej ei hkj hki hgt).elim

/-! ### what goes wrong -/

/-- The arrangements of up to three operations. -/
theorem arrangements (l : List Nat) (hn : l.Nodup) (hb : ∀ x ∈ l, x < 3) :
    l ∈ ([[], [0], [1], [2], [0, 1], [0, 2], [1, 0], [1, 2], [2, 0], [2, 1], [0, 1, 2], [0, 2, 1], [1, 0, 2], [1, 2, 0],
      [2, 0, 1], [2, 1, 0]] : List (List Nat)) := by
  match l, hn, hb with
  | [], _, _ => simp
  | [a], _, hb => have := hb a (by simp); simp; omega
  | [a, b], hn, hb =>
    have h1 := hb a (by simp); have h2 := hb b (by simp); simp at hn ⊢; omega
  | [a, b, c], hn, hb =>
    have h1 := hb a (by simp); have h2 := hb b (by simp); have h3 := hb c (by simp); simp at hn ⊢; omega
  | a :: b :: c :: d :: r, hn, hb =>
    have h1 := hb a (by simp); have h2 := hb b (by simp); have h3 := hb c (by simp); have h4 := hb d (by simp)
    simp at hn
    omega

/-- Operations 0, 1, 2 (and further ones that are not called). -/
def three (a b c : Op) : Nat → Op
  | 0 => a
  | 1 => b
  | _ => c

/-- Does some arrangement of operations 0, 1, 2 give these answers (of the operations in the list) and this
database. -/
def explains (s : Cat) (ops : Nat → Op) (c : Conf) (order : List Nat) : Bool :=
  decide (core c.cat = core (run s (order.map ops))) &&
    (List.range 3).all (fun i => decide (c.stage i = .start) || order.contains i) &&
    (List.range order.length).all (fun k =>
      match order[k]? with
      | none => true
      | some i =>
        match c.stage i with
        | .done e => decide ((exec (run s ((order.take k).map ops)) (ops i)).2 = e)
        | _ => true)

/-- If no arrangement explains the outcome of a schedule of operations 0, 1, 2, it is not serial. -/
theorem not_serial (s : Cat) (ops : Nat → Op) (sch : List Nat) (hsch : ∀ i ∈ sch, i < 3)
    (hfin : ∀ i, i < 3 → (interleave ops (initial s) sch).stage i = .start ∨ Finished (interleave ops (initial s) sch) i)
    (hno : ([[], [0], [1], [2], [0, 1], [0, 2], [1, 0], [1, 2], [2, 0], [2, 1], [0, 1, 2], [0, 2, 1], [1, 0, 2], [1, 2, 0],
      [2, 0, 1], [2, 1, 0]] : List (List Nat)).all (fun l => !explains s ops (interleave ops (initial s) sch) l) = true) :
    ¬ Serial s ops sch := by
  rintro ⟨order, hnd, hcat, hin, hst, hans, _⟩
  have hstart : ∀ (l : List Nat) (c : Conf) (i : Nat), i ∉ l → (interleave ops c l).stage i = c.stage i := by
    intro l
    induction l with
    | nil => intro c i _; rfl
    | cons j l ih =>
      intro c i hi
      simp only [List.mem_cons, not_or] at hi
      simp only [interleave, List.foldl_cons]
      have := ih (call ops c j) i hi.2
      simp only [interleave] at this
      rw [this]
      simp [call, hi.1]
  have hb : ∀ x ∈ order, x < 3 := by
    intro x hx
    have h0 := hst x hx
    by_cases hm : x ∈ sch
    · exact hsch x hm
    · exact absurd (hstart sch (initial s) x hm) h0
  have hmem := arrangements order hnd hb
  have := List.all_eq_true.1 hno order hmem
  simp only [Bool.not_eq_true', explains, Bool.and_eq_false_iff] at this
  rcases this with (h | h) | h
  · simp only [decide_eq_false_iff_not] at h
    exact h hcat
  · simp only [List.all_eq_false, List.mem_range, Bool.or_eq_true, decide_eq_true_eq, List.contains_eq_mem] at h
    obtain ⟨i, hi, h⟩ := h
    rcases hfin i hi with h1 | h1
    · exact h (Or.inl h1)
    · exact h (Or.inr (hin i h1))
  · simp only [List.all_eq_false, List.mem_range] at h
    obtain ⟨k, hk, h⟩ := h
    apply h
    rw [List.getElem?_eq_getElem hk]
    simp only
    cases hs : (interleave ops (initial s) sch).stage order[k] with
    | done e =>
      simp only [decide_eq_true_eq]
      exact hans k _ e (List.getElem?_eq_getElem hk) hs
    | _ => rfl

/-- Two sessions rename table `t`: one to `a`, one to `b`. -/
def twoRenames : Nat → Op :=
  three (.renameTable "default" "public" "t" "public" "a") (.renameTable "default" "public" "t" "public" "b") (.createDb "x")

/-- **C127** is violated: both renames of the same table succeed, though after the first there is no table of
the old name. -/
theorem C127_violated_rename :
    (interleave twoRenames (initial exCat) [0, 1, 0, 1]).stage 0 = .done none ∧
    (interleave twoRenames (initial exCat) [0, 1, 0, 1]).stage 1 = .done none ∧
    ¬ Serial exCat twoRenames [0, 1, 0, 1] := by
  refine ⟨by decide +kernel, by decide +kernel, not_serial _ _ _ (by decide) ?_ (by decide +kernel)⟩
  intro i hi
  match i, hi with
  | 0, _ => exact Or.inr ⟨none, by decide +kernel⟩
  | 1, _ => exact Or.inr ⟨none, by decide +kernel⟩
  | 2, _ => exact Or.inl (by decide +kernel)

/-- Two operations that both succeeded, though each of them fails after the other one: no order explains that. -/
theorem not_serial_pair (s : Cat) (ops : Nat → Op) (sch : List Nat) (hsch : ∀ i ∈ sch, i = 0 ∨ i = 1)
    (h0 : (interleave ops (initial s) sch).stage 0 = .done none) (h1 : (interleave ops (initial s) sch).stage 1 = .done none)
    (h01 : (exec s (ops 0)).2 = none → (exec (exec s (ops 0)).1 (ops 1)).2 ≠ none)
    (h10 : (exec s (ops 1)).2 = none → (exec (exec s (ops 1)).1 (ops 0)).2 ≠ none) : ¬ Serial s ops sch := by
  rintro ⟨order, hnd, _, hin, hst, hans, _⟩
  have hstart : ∀ (l : List Nat) (c : Conf) (i : Nat), i ∉ l → (interleave ops c l).stage i = c.stage i := by
    intro l
    induction l with
    | nil => intro c i _; rfl
    | cons j l ih =>
      intro c i hi
      simp only [List.mem_cons, not_or] at hi
      have := ih (call ops c j) i hi.2
      simp only [interleave, List.foldl_cons] at this ⊢
      rw [this]
      simp [call, hi.1]
  have hb : ∀ x ∈ order, x = 0 ∨ x = 1 := by
    intro x hx
    by_cases hm : x ∈ sch
    · exact hsch x hm
    · exact absurd (hstart sch (initial s) x hm) (hst x hx)
  have hm0 : (0 : Nat) ∈ order := hin 0 ⟨_, h0⟩
  have hm1 : (1 : Nat) ∈ order := hin 1 ⟨_, h1⟩
  match order, hnd, hb, hm0, hm1, hans with
  | [], _, _, h, _, _ => simp at h
  | [x], _, _, ha, hc, _ =>
    simp only [List.mem_singleton] at ha hc
    omega
  | x :: y :: z :: l, hnd, hb, _, _, _ =>
    have hx := hb x (by simp)
    have hy := hb y (by simp)
    have hz := hb z (by simp)
    simp only [List.nodup_cons, List.mem_cons, not_or] at hnd
    omega
  | [x, y], hnd, hb, _, _, hans =>
    have hx := hb x (by simp)
    have hy := hb y (by simp)
    simp only [List.nodup_cons, List.mem_cons, List.not_mem_nil, or_false] at hnd
    rcases hx with rfl | rfl <;> rcases hy with rfl | rfl
    · exact absurd rfl hnd.1
    · exact h01 (hans 0 0 none rfl h0) (hans 1 1 none rfl h1)
    · exact h10 (hans 0 1 none rfl h1) (hans 1 0 none rfl h0)
    · exact absurd rfl hnd.1

/-- Renaming the table with a given identifier, whatever its name is by then. -/
theorem rename_by_id (s : Cat) (h : WF s) (db sch n a : String) (t : Tab) (ht : IsTable s db sch n t)
    (ha : ∀ u, ¬ IsTable s db sch a u) :
    ∃ s', repoRename s t.id a none = (s', .ok ()) ∧ WF s' ∧ IsTable s' db sch a { t with name := a } ∧
      (∀ x u, IsTable s' db sch x u → (x = a ∧ u = { t with name := a }) ∨ (IsTable s db sch x u ∧ u.id ≠ t.id)) := by
  obtain ⟨ht1, ht2, c, hc, hct⟩ := ht
  have hf : s.tabs.find? (·.id == t.id) = some t := by
    cases hx : s.tabs.find? (·.id == t.id) with
    | none => exact absurd (List.find?_eq_none.1 hx t ht1) (by simp)
    | some u =>
      have hu := List.find?_some hx
      have hm := List.mem_of_find?_eq_some hx
      simp only [beq_iff_eq] at hu
      rw [eq_of_pairwise h.tabIds hm ht1 (by simp [hu]) (by simp [hu])]
  have hany : s.tabs.any (fun u => u.id != t.id && u.name == a && u.collId == t.collId) = false := by
    rw [List.any_eq_false]
    intro u hu hh
    simp only [Bool.and_eq_true, bne_iff_ne, ne_eq, beq_iff_eq] at hh
    exact ha u ⟨hu, hh.1.2, c, hc, by rw [hct, hh.2]⟩
  have hcoll : s.colls.any (·.id == t.collId) = true := by
    rw [List.any_eq_true]
    exact ⟨c, hc.1, by simp [hct]⟩
  let s' : Cat := { s with tabs := s.tabs.map (fun u => if u.id = t.id then { u with name := a, collId := t.collId } else u) }
  have hr : repoRename s t.id a none = (s', .ok ()) := by
    simp only [repoRename, hf, Option.getD_none, hany, hcoll]
    simp [s']
  have hsch : ∀ x c, IsSchema s' db x c ↔ IsSchema s db x c := fun _ _ => Iff.rfl
  refine ⟨s', hr, ?_, ?_, ?_⟩
  · have := wf_rename s h t.id none n sch a
    simp only [rename, hr] at this
    exact this
  · refine ⟨List.mem_map.2 ⟨t, ht1, by simp⟩, rfl, c, hc, hct⟩
  · rintro x u ⟨hu, hn, c', hc', hcu⟩
    obtain ⟨w, hw, e⟩ := List.mem_map.1 hu
    by_cases hid : w.id = t.id
    · rw [if_pos hid] at e
      have := eq_of_pairwise h.tabIds hw ht1 (by simp [hid]) (by simp [hid])
      subst this
      subst e
      exact Or.inl ⟨hn.symm, rfl⟩
    · rw [if_neg hid] at e
      subst e
      exact Or.inr ⟨⟨hw, hn, c', hc', hcu⟩, hid⟩

theorem exec_gone {s : Cat} {db sch n : String} (h : ∀ t, ¬ IsTable s db sch n t) (ns a : String) :
    (exec s (.renameTable db sch n ns a)).2 ≠ none ∧ (exec s (.deleteTable db sch n)).2 ≠ none := by
  rcases getTable_cases s db sch n with ⟨t, ht, _⟩ | ⟨_, hg⟩
  · exact absurd ht (h t)
  · simp [exec, renameTable, deleteTable, hg, errOf]

theorem renamed_gone {s : Cat} (h : WF s) {db sch n a : String} (ha : a ≠ n)
    (hr : (exec s (.renameTable db sch n sch a)).2 = none) :
    ∀ t, ¬ IsTable (exec s (.renameTable db sch n sch a)).1 db sch n t := by
  simp only [exec] at hr ⊢
  rcases hx : renameTable s db sch n sch a with ⟨s', e⟩
  rw [hx] at hr
  cases e with
  | error e => cases hr
  | ok u =>
    obtain ⟨t, _, _, hg, _⟩ := C33_rename s s' h db sch n sch a hx
    exact hg (by simp [Ne.symm ha])

theorem dropped_gone {s : Cat} (h : WF s) {db sch n : String} (hr : (exec s (.deleteTable db sch n)).2 = none) :
    ∀ t, ¬ IsTable (exec s (.deleteTable db sch n)).1 db sch n t := by
  rcases getTable_cases s db sch n with ⟨t, ht, hg⟩ | ⟨_, hg⟩
  · have hany : s.tabs.any (·.id == t.id) = true := List.any_eq_true.2 ⟨t, ht.1, by simp⟩
    have : (exec s (.deleteTable db sch n)).1 = dropTabs s (·.id == t.id) := by
      simp [exec, deleteTable, hg, repoDeleteTab, hany]
    rw [this]
    rintro u ⟨hu, hn, c, hc, e⟩
    simp only [dropTabs, dropVers, List.mem_filter, Bool.not_eq_true', beq_eq_false_iff_ne, ne_eq] at hu
    have hx : IsTable s db sch n u := ⟨hu.1, hn, c, hc, e⟩
    exact hu.2 (by rw [IsTable_unique h hx ht])
  · simp [exec, deleteTable, hg, errOf] at hr

/-- **C127 is violated, always**: two renames of any one table to two free names, both of which look it up before either of
them changes it.  Both succeed, the table has the name of the slower one, and no order of the two explains that. -/
theorem C127_violated_rename_always (s : Cat) (h : WF s) (db sch n a b : String) (t : Tab) (ht : IsTable s db sch n t)
    (ha : ∀ u, ¬ IsTable s db sch a u) (hb : ∀ u, ¬ IsTable s db sch b u) (hab : a ≠ b) (o : Op) :
    let ops := three (.renameTable db sch n sch a) (.renameTable db sch n sch b) o
    let c := interleave ops (initial s) [0, 1, 0, 1]
    c.stage 0 = .done none ∧ c.stage 1 = .done none ∧ IsTable c.cat db sch b { t with name := b } ∧
      (∀ u, ¬ IsTable c.cat db sch a u) ∧ ¬ Serial s ops [0, 1, 0, 1] := by
  intro ops c
  have hna : a ≠ n := fun e => ha t (e ▸ ht)
  have hnb : b ≠ n := fun e => hb t (e ▸ ht)
  obtain ⟨s1, hr1, hw1, ht1, hall1⟩ := rename_by_id s h db sch n a t ht ha
  have hb1 : ∀ u, ¬ IsTable s1 db sch b u := by
    intro u hu
    rcases hall1 b u hu with ⟨e, _⟩ | ⟨hu', _⟩
    · exact hab e.symm
    · exact hb u hu'
  obtain ⟨s2, hr2, hw2, ht2, hall2⟩ := rename_by_id s1 hw1 db sch a b { t with name := a } ht1 hb1
  have hr2' : repoRename s1 t.id b none = (s2, .ok ()) := hr2
  have hc : c.cat = s2 ∧ c.stage 0 = .done none ∧ c.stage 1 = .done none := by
    simp only [c, interleave, List.foldl_cons, List.foldl_nil, call, initial, step, first, second, ops, three, getTable_of h ht,
      heldOf_ok, rename, hr1, hr2', ne_eq, not_true_eq_false, if_false, if_true, Nat.zero_ne_one, Nat.one_ne_zero]
    simp
  obtain ⟨e0, e1, e2⟩ := hc
  refine ⟨e1, e2, by rw [e0]; exact ht2, ?_, not_serial_pair s ops _ (by decide) e1 e2 ?_ ?_⟩
  · intro u hu
    rw [e0] at hu
    rcases hall2 a u hu with ⟨e, _⟩ | ⟨hu', hid⟩
    · exact hab e
    · rcases hall1 a u hu' with ⟨_, e⟩ | ⟨hu'', _⟩
      · exact hid (by rw [e])
      · exact ha u hu''
  · intro hr
    exact (exec_gone (renamed_gone h hna hr) sch b).1
  · intro hr
    exact (exec_gone (renamed_gone h hnb hr) sch a).1

/-- **C127 is violated, always**: `DROP TABLE` of any table that another session renames between the two calls of the drop.
The drop removes the table under its new name although the rename has returned; both succeed, and no order of the two
explains that. -/
theorem C127_violated_drop_always (s : Cat) (h : WF s) (db sch n b : String) (t : Tab) (ht : IsTable s db sch n t)
    (hb : ∀ u, ¬ IsTable s db sch b u) (o : Op) :
    let ops := three (.deleteTable db sch n) (.renameTable db sch n sch b) o
    let c := interleave ops (initial s) [0, 1, 1, 0]
    c.stage 0 = .done none ∧ c.stage 1 = .done none ∧
      IsTable (interleave ops (initial s) [0, 1, 1]).cat db sch b { t with name := b } ∧
      (∀ u, ¬ IsTable c.cat db sch b u) ∧ ¬ Serial s ops [0, 1, 1, 0] := by
  intro ops c
  have hnb : b ≠ n := fun e => hb t (e ▸ ht)
  obtain ⟨s1, hr1, hw1, ht1, hall1⟩ := rename_by_id s h db sch n b t ht hb
  have hany : s1.tabs.any (·.id == t.id) = true := List.any_eq_true.2 ⟨_, ht1.1, by simp⟩
  have hd : repoDeleteTab s1 t.id = (dropTabs s1 (·.id == t.id), .ok ()) := by simp [repoDeleteTab, hany]
  have hc : (interleave ops (initial s) [0, 1, 1]).cat = s1 ∧ c.cat = dropTabs s1 (·.id == t.id) ∧ c.stage 0 = .done none ∧
      c.stage 1 = .done none := by
    simp only [c, interleave, List.foldl_cons, List.foldl_nil, call, initial, step, first, second, ops, three, getTable_of h ht,
      heldOf_ok, rename, hr1, hd, ne_eq, not_true_eq_false, if_false, if_true, Nat.zero_ne_one, Nat.one_ne_zero]
    simp
  obtain ⟨e0, e1, e2, e3⟩ := hc
  refine ⟨e2, e3, by rw [e0]; exact ht1, ?_, not_serial_pair s ops _ (by decide) e2 e3 ?_ ?_⟩
  · rintro u hu
    rw [e1] at hu
    obtain ⟨hu1, hn, c', hc', e⟩ := hu
    simp only [dropTabs, dropVers, List.mem_filter, Bool.not_eq_true', beq_eq_false_iff_ne, ne_eq] at hu1
    rcases hall1 b u ⟨hu1.1, hn, c', hc', e⟩ with ⟨_, e⟩ | ⟨hu', _⟩
    · exact hu1.2 (by rw [e])
    · exact hb u hu'
  · intro hr
    exact (exec_gone (dropped_gone h hr) sch b).1
  · intro hr
    exact (exec_gone (renamed_gone h hnb hr) sch n).2

/-- One session drops `t` while another renames it to `b`. -/
def dropRename : Nat → Op :=
  three (.deleteTable "default" "public" "t") (.renameTable "default" "public" "t" "public" "b") (.createDb "x")

/-- **C127** is violated: `DROP TABLE t` removes table `b`, which a statement that has returned has just renamed;
both succeed. -/
theorem C127_violated_drop :
    (interleave dropRename (initial exCat) [0, 1, 1, 0]).stage 0 = .done none ∧
    (interleave dropRename (initial exCat) [0, 1, 1, 0]).stage 1 = .done none ∧
    (∃ t, IsTable (interleave dropRename (initial exCat) [0, 1, 1]).cat "default" "public" "b" t) ∧
    (∀ t, ¬ IsTable (interleave dropRename (initial exCat) [0, 1, 1, 0]).cat "default" "public" "b" t) ∧
    ¬ Serial exCat dropRename [0, 1, 1, 0] := by
  refine ⟨by decide +kernel, by decide +kernel, ?_, ?_, not_serial _ _ _ (by decide) ?_ (by decide +kernel)⟩
  · refine ⟨⟨1, 1, "b", 77⟩, ?_, rfl, ⟨1, 1, "public"⟩, ⟨?_, rfl, ⟨1, "default"⟩, ⟨?_, rfl⟩, rfl⟩, rfl⟩ <;> decide +kernel
  · rintro t ⟨h1, h2, _⟩
    have : (interleave dropRename (initial exCat) [0, 1, 1, 0]).cat.tabs.all (fun t => t.name != "b") = true := by decide +kernel
    have := List.all_eq_true.1 this t h1
    simp [h2] at this
  · intro i hi
    match i, hi with
    | 0, _ => exact Or.inr ⟨none, by decide +kernel⟩
    | 1, _ => exact Or.inr ⟨none, by decide +kernel⟩
    | 2, _ => exact Or.inl (by decide +kernel)

/-- Two sessions drop `s2.t`, a third creates `public.x`. -/
def dropCreate : Nat → Op :=
  three (.deleteTable "default" "s2" "t") (.deleteTable "default" "s2" "t") (.createTable "default" "public" "x" [] 90 200 true)

/-- **C127** is violated with SQLite, which gives identifiers of deleted rows to new ones: the slower
`DROP TABLE s2.t` removes table `public.x`, created meanwhile. -/
theorem C127_violated_reuse :
    (∀ i, i < 3 → (interleave dropCreate (initial exCat) [0, 1, 1, 2, 2, 0]).stage i = .done none) ∧
    (∃ t, IsTable (interleave dropCreate (initial exCat) [0, 1, 1, 2, 2]).cat "default" "public" "x" t) ∧
    (∀ t, ¬ IsTable (interleave dropCreate (initial exCat) [0, 1, 1, 2, 2, 0]).cat "default" "public" "x" t) ∧
    ¬ Serial exCat dropCreate [0, 1, 1, 2, 2, 0] := by
  have hd : ∀ i, i < 3 → (interleave dropCreate (initial exCat) [0, 1, 1, 2, 2, 0]).stage i = .done none := by
    intro i hi
    match i, hi with
    | 0, _ => decide +kernel
    | 1, _ => decide +kernel
    | 2, _ => decide +kernel
  refine ⟨hd, ?_, ?_, not_serial _ _ _ (by decide) (fun i hi => Or.inr ⟨none, hd i hi⟩) (by decide +kernel)⟩
  · refine ⟨⟨2, 1, "x", 90⟩, ?_, rfl, ⟨1, 1, "public"⟩, ⟨?_, rfl, ⟨1, "default"⟩, ⟨?_, rfl⟩, rfl⟩, rfl⟩ <;> decide +kernel
  · rintro t ⟨h1, h2, _⟩
    have : (interleave dropCreate (initial exCat) [0, 1, 1, 2, 2, 0]).cat.tabs.all (fun t => t.name != "x") = true := by decide +kernel
    have := List.all_eq_true.1 this t h1
    simp [h2] at this

/-- A session creates table `s2.x`, another drops schema `s2`, a third creates schema `z`. -/
def createElsewhere : Nat → Op :=
  three (.createTable "default" "s2" "x" [] 90 200 true) (.deleteSchema "default" "s2") (.createSchema "default" "z")

/-- **C127** is violated with SQLite: `CREATE TABLE s2.x` creates table `z.x`. -/
theorem C127_violated_schema :
    (∀ i, i < 3 → (interleave createElsewhere (initial exCat) [0, 1, 1, 2, 2, 0]).stage i = .done none) ∧
    (∃ t, IsTable (interleave createElsewhere (initial exCat) [0, 1, 1, 2, 2, 0]).cat "default" "z" "x" t) ∧
    ¬ Serial exCat createElsewhere [0, 1, 1, 2, 2, 0] := by
  have hd : ∀ i, i < 3 → (interleave createElsewhere (initial exCat) [0, 1, 1, 2, 2, 0]).stage i = .done none := by
    intro i hi
    match i, hi with
    | 0, _ => decide +kernel
    | 1, _ => decide +kernel
    | 2, _ => decide +kernel
  refine ⟨hd, ?_, not_serial _ _ _ (by decide) (fun i hi => Or.inr ⟨none, hd i hi⟩) (by decide +kernel)⟩
  refine ⟨⟨2, 2, "x", 90⟩, ?_, rfl, ⟨2, 1, "z"⟩, ⟨?_, rfl, ⟨1, "default"⟩, ⟨?_, rfl⟩, rfl⟩, rfl⟩ <;> decide +kernel

/-- A session creates table `x`, another writes to it. -/
def createWrite : Nat → Op :=
  three (.createTable "default" "public" "x" [("a", "int")] 90 200 true) (.newVersion 90 1 201 true) (.createDb "x")

/-- Columns are not part of what is atomic: a write that comes before the columns of a new table are written
leaves the table's current version without columns, in no order of the two operations. -/
theorem C127_violated_columns :
    (∀ i, i < 2 → (interleave createWrite (initial exCat) [0, 0, 1, 1, 1, 0]).stage i = .done none) ∧
    (∃ t, IsTable (interleave createWrite (initial exCat) [0, 0, 1, 1, 1, 0]).cat "default" "public" "x" t ∧
      currentCols (interleave createWrite (initial exCat) [0, 0, 1, 1, 1, 0]).cat t.id = []) ∧
    currentCols (run exCat [createWrite 0, createWrite 1]) 3 ≠ [] ∧
    (exec (run exCat []) (createWrite 1)).2 ≠ none := by
  refine ⟨?_, ⟨⟨3, 1, "x", 90⟩, ⟨?_, rfl, ⟨1, 1, "public"⟩, ⟨?_, rfl, ⟨1, "default"⟩, ⟨?_, rfl⟩, rfl⟩, rfl⟩, ?_⟩, ?_, ?_⟩
  · intro i hi
    match i, hi with
    | 0, _ => decide +kernel
    | 1, _ => decide +kernel
  all_goals decide +kernel

/-! ### examples -/

/-- Two sessions create table `x`, one writes to `t`, and so on. -/
def exAdds : Nat → Op
  | 0 => .createTable "default" "public" "x" [("a", "int")] 90 200 true
  | 1 => .createTable "default" "public" "x" [("b", "int")] 91 201 true
  | 2 => .newVersion 77 3 202 true
  | _ => .createSchema "default" "s3"

example : Serial exCat exAdds [0, 1, 2, 3, 1, 2, 0, 1, 3, 2] := by
  refine C127_creations exCat wf_exCat exAdds ?_ (by decide) ?_ ?_ _
  · intro i
    match i with
    | 0 | 1 | 2 | n + 3 => trivial
  · intro i t ht
    match i with
    | 0 | 1 => simp [exCat] at ht; rcases ht with rfl | rfl <;> simp [exAdds, createdUuid]
    | 2 | n + 3 => simp [exAdds, createdUuid]
  · intro i j u hi hj
    match i, j with
    | 0, 0 | 1, 1 => rfl
    | 0, 1 | 1, 0 => simp [exAdds, createdUuid] at hi hj; omega
    | 2, _ | n + 3, _ => simp [exAdds, createdUuid] at hi
    | 0, 2 | 0, n + 3 | 1, 2 | 1, n + 3 => simp [exAdds, createdUuid] at hj

example : (interleave exAdds (initial exCat) [0, 1, 2, 3, 1, 2, 0, 1, 3, 2]).stage 0 = .done (some (.tableAlreadyExists "x")) ∧
    (interleave exAdds (initial exCat) [0, 1, 2, 3, 1, 2, 0, 1, 3, 2]).stage 1 = .done none := by
  constructor <;> decide +kernel

/-- Statements on different tables. -/
def exApart : Nat → Op :=
  three (.deleteTable "default" "public" "t") (.renameTable "default" "s2" "t" "public" "b") (.createDb "x")

example : Serial exCat exApart [0, 1, 1, 0, 1] := by
  refine C127_serial_partial exCat wf_exCat exApart _ ⟨trivial, trivial, ?_, ?_, ?_, trivial⟩
  · exact ⟨⟨2, 2, "t", 79⟩, ⟨by decide +kernel, rfl, ⟨2, 1, "s2"⟩, ⟨by decide +kernel, rfl, ⟨1, "default"⟩, ⟨by decide +kernel, rfl⟩, rfl⟩, rfl⟩, rfl⟩
  · exact ⟨⟨1, 1, "t", 77⟩, ⟨by decide +kernel, rfl, ⟨1, 1, "public"⟩, ⟨by decide +kernel, rfl, ⟨1, "default"⟩, ⟨by decide +kernel, rfl⟩, rfl⟩, rfl⟩, rfl⟩
  · exact ⟨by decide, by decide,
      ⟨⟨2, 2, "t", 79⟩, ⟨by decide +kernel, rfl, ⟨2, 1, "s2"⟩, ⟨by decide +kernel, rfl, ⟨1, "default"⟩, ⟨by decide +kernel, rfl⟩, rfl⟩, rfl⟩, rfl⟩,
      ⟨1, 1, "public"⟩, ⟨by decide +kernel, rfl, ⟨1, "default"⟩, ⟨by decide +kernel, rfl⟩, rfl⟩, rfl⟩

end Seafowl.Catalog.Concurrent
