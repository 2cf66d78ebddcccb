import Verif.Catalog.Catalog

/-!
# C31: uniqueness and referential integrity of the catalog
-/

namespace Seafowl.Catalog

set_option linter.unusedSimpArgs false

/-- Names and identifiers are unique and references intact. -/
structure WF (s : Cat) : Prop where
  dbIds : s.dbs.Pairwise (fun a b => a.id ≠ b.id)
  dbNames : s.dbs.Pairwise (fun a b => a.name ≠ b.name)
  collIds : s.colls.Pairwise (fun a b => a.id ≠ b.id)
  collNames : s.colls.Pairwise (fun a b => ¬ (a.dbId = b.dbId ∧ a.name = b.name))
  collParent : ∀ c ∈ s.colls, ∃ d ∈ s.dbs, d.id = c.dbId
  tabIds : s.tabs.Pairwise (fun a b => a.id ≠ b.id)
  tabNames : s.tabs.Pairwise (fun a b => ¬ (a.collId = b.collId ∧ a.name = b.name))
  tabParent : ∀ t ∈ s.tabs, ∃ c ∈ s.colls, c.id = t.collId
  verIds : s.vers.Pairwise (fun a b => a.id ≠ b.id)
  verParent : ∀ v ∈ s.vers, ∃ t ∈ s.tabs, t.id = v.tableId
  colNames : s.cols.Pairwise (fun a b => ¬ (a.verId = b.verId ∧ a.name = b.name))
  colParent : ∀ c ∈ s.cols, ∃ v ∈ s.vers, v.id = c.verId
  fnIds : s.fns.Pairwise (fun a b => a.id ≠ b.id)
  fnNames : s.fns.Pairwise (fun a b => ¬ (a.dbId = b.dbId ∧ a.name = b.name))
  fnParent : ∀ f ∈ s.fns, ∃ d ∈ s.dbs, d.id = f.dbId

/-! ### lemmas -/

theorem lt_newId (l : List Nat) : ∀ i ∈ l, i < newId l := by
  induction l with
  | nil => intro i h; simp at h
  | cons a l ih =>
    intro i h
    simp only [newId]
    rcases List.mem_cons.1 h with rfl | h
    · omega
    · have := ih i h; omega

theorem lt_newId_map {α : Type} (f : α → Nat) {l : List α} {b : α} (hb : b ∈ l) : f b < newId (l.map f) :=
  lt_newId _ _ (List.mem_map_of_mem hb)

theorem pairwise_snoc {α : Type} {R : α → α → Prop} {l : List α} {a : α} (h : l.Pairwise R) (ha : ∀ b ∈ l, R b a) :
    (l ++ [a]).Pairwise R := by
  rw [List.pairwise_append]
  refine ⟨h, by simp, ?_⟩
  intro b hb c hc
  simp only [List.mem_singleton] at hc
  subst hc
  exact ha b hb

theorem pairwise_filter {α : Type} {R : α → α → Prop} {l : List α} (p : α → Bool) (h : l.Pairwise R) :
    (l.filter p).Pairwise R := List.Pairwise.sublist List.filter_sublist h

/-- Elements related by a symmetric "different" relation: two members that are not different are equal. -/
theorem eq_of_pairwise {α : Type} {R : α → α → Prop} {l : List α} (h : l.Pairwise R) {a b : α} (ha : a ∈ l) (hb : b ∈ l)
    (h1 : ¬ R a b) (h2 : ¬ R b a) : a = b := by
  induction l with
  | nil => simp at ha
  | cons x l ih =>
    rw [List.pairwise_cons] at h
    rcases List.mem_cons.1 ha with rfl | ha' <;> rcases List.mem_cons.1 hb with rfl | hb'
    · rfl
    · exact absurd (h.1 b hb') h1
    · exact absurd (h.1 a ha') h2
    · exact ih h.2 ha' hb'

theorem find_some {α : Type} {p : α → Bool} {l : List α} {a : α} (h : l.find? p = some a) : a ∈ l ∧ p a = true :=
  ⟨List.mem_of_find?_eq_some h, List.find?_some h⟩

theorem any_false {α : Type} {p : α → Bool} {l : List α} (h : l.any p = false) : ∀ a ∈ l, p a = false := by
  intro a ha
  rw [List.any_eq_false] at h
  simpa using h a ha

theorem distinct_pairwise (cs : List (String × String)) (h : distinctNames cs = true) :
    cs.Pairwise (fun a b => a.1 ≠ b.1) := by
  induction cs with
  | nil => simp
  | cons c cs ih =>
    simp only [distinctNames, Bool.and_eq_true, Bool.not_eq_true'] at h
    rw [List.pairwise_cons]
    refine ⟨?_, ih h.2⟩
    intro b hb e
    have := any_false h.1 b hb
    simp only [beq_eq_false_iff_ne] at this
    exact this e.symm

/-! ### the operations keep the invariant -/

theorem wf_dropVers (s : Cat) (h : WF s) (gone : Ver → Bool) : WF (dropVers s gone) := by
  refine { h with verIds := pairwise_filter _ h.verIds, colNames := pairwise_filter _ h.colNames, verParent := ?_, colParent := ?_ }
  · intro v hv
    exact h.verParent v (List.mem_filter.1 hv).1
  · intro c hc
    obtain ⟨hc1, hc2⟩ := List.mem_filter.1 hc
    obtain ⟨v, hv, e⟩ := h.colParent c hc1
    refine ⟨v, ?_, e⟩
    apply List.mem_filter.2
    refine ⟨hv, ?_⟩
    simp only [Bool.not_eq_true'] at hc2 ⊢
    have := any_false hc2 v hv
    simp only [e, beq_self_eq_true, Bool.and_true] at this
    exact this

theorem wf_dropTabs (s : Cat) (h : WF s) (gone : Tab → Bool) : WF (dropTabs s gone) := by
  have h1 := wf_dropVers s h (fun v => s.tabs.any (fun t => gone t && t.id == v.tableId))
  refine { h1 with tabIds := pairwise_filter _ h1.tabIds, tabNames := pairwise_filter _ h1.tabNames, tabParent := ?_, verParent := ?_ }
  · intro t ht
    exact h1.tabParent t (List.mem_filter.1 ht).1
  · intro v hv
    obtain ⟨hv1, hv2⟩ := List.mem_filter.1 hv
    obtain ⟨t, ht, e⟩ := h.verParent v hv1
    refine ⟨t, ?_, e⟩
    apply List.mem_filter.2
    refine ⟨ht, ?_⟩
    simp only [Bool.not_eq_true'] at hv2 ⊢
    have := any_false hv2 t ht
    simp only [e, beq_self_eq_true, Bool.and_true] at this
    exact this

theorem wf_dropColls (s : Cat) (h : WF s) (gone : Coll → Bool) : WF (dropColls s gone) := by
  have h1 := wf_dropTabs s h (fun t => s.colls.any (fun c => gone c && c.id == t.collId))
  refine { h1 with collIds := pairwise_filter _ h1.collIds, collNames := pairwise_filter _ h1.collNames, collParent := ?_, tabParent := ?_ }
  · intro t ht
    exact h1.collParent t (List.mem_filter.1 ht).1
  · intro v hv
    obtain ⟨hv1, hv2⟩ := List.mem_filter.1 hv
    obtain ⟨t, ht, e⟩ := h.tabParent v hv1
    refine ⟨t, ?_, e⟩
    apply List.mem_filter.2
    refine ⟨ht, ?_⟩
    simp only [Bool.not_eq_true'] at hv2 ⊢
    have := any_false hv2 t ht
    simp only [e, beq_self_eq_true, Bool.and_true] at this
    exact this

theorem wf_repoCreateDb (s : Cat) (h : WF s) (n : String) : WF (repoCreateDb s n).1 := by
  simp only [repoCreateDb]
  split
  · exact h
  · next hn =>
    have hn := any_false (by simpa using hn : s.dbs.any (fun x => x.name == n) = false)
    refine { h with dbIds := pairwise_snoc h.dbIds ?_, dbNames := pairwise_snoc h.dbNames ?_, collParent := ?_, fnParent := ?_ }
    · intro b hb e
      have := lt_newId_map (fun x => x.id) hb
      simp only at e
      omega
    · intro b hb e
      have := hn b hb
      simp only [beq_eq_false_iff_ne] at this
      exact this e
    · intro c hc
      obtain ⟨d, hd, e⟩ := h.collParent c hc
      exact ⟨d, List.mem_append.2 (Or.inl hd), e⟩
    · intro c hc
      obtain ⟨d, hd, e⟩ := h.fnParent c hc
      exact ⟨d, List.mem_append.2 (Or.inl hd), e⟩

theorem wf_repoCreateColl (s : Cat) (h : WF s) (dbId : Nat) (n : String) : WF (repoCreateColl s dbId n).1 := by
  simp only [repoCreateColl]
  split
  · exact h
  · next hn =>
    have hn := any_false (by simpa using hn : s.colls.any (fun c => c.name == n && c.dbId == dbId) = false)
    split
    · exact h
    · next hfk =>
      simp only [Bool.not_eq_true', Bool.not_eq_false, List.any_eq_true, beq_iff_eq] at hfk
      obtain ⟨d, hd, hde⟩ := hfk
      refine { h with collIds := pairwise_snoc h.collIds ?_, collNames := pairwise_snoc h.collNames ?_, collParent := ?_, tabParent := ?_ }
      · intro b hb e
        have := lt_newId_map (fun x => x.id) hb
        simp only at e
        omega
      · rintro b hb ⟨e1, e2⟩
        have := hn b hb
        simp [e1, e2] at this
      · intro c hc
        rcases List.mem_append.1 hc with hc | hc
        · exact h.collParent c hc
        · simp only [List.mem_singleton] at hc
          subst hc
          exact ⟨d, hd, hde⟩
      · intro t ht
        obtain ⟨c, hc, e⟩ := h.tabParent t ht
        exact ⟨c, List.mem_append.2 (Or.inl hc), e⟩

theorem wf_newTab (s : Cat) (h : WF s) (collId : Nat) (n : String) (uuid : Nat) (now : Int)
    (hn : ∀ t ∈ s.tabs, ¬ (t.collId = collId ∧ t.name = n)) (hfk : ∃ c ∈ s.colls, c.id = collId) :
    WF { s with
      tabs := s.tabs ++ [{ id := newId (s.tabs.map (·.id)), collId := collId, name := n, uuid := uuid }]
      vers := s.vers ++ [{ id := newId (s.vers.map (·.id)), tableId := newId (s.tabs.map (·.id)), version := 0, time := now }] } := by
  refine { h with tabIds := pairwise_snoc h.tabIds ?_, tabNames := pairwise_snoc h.tabNames ?_, tabParent := ?_, verIds := pairwise_snoc h.verIds ?_, verParent := ?_, colParent := ?_ }
  · intro b hb e
    have := lt_newId_map (fun x => x.id) hb
    simp only at e
    omega
  · intro b hb e
    exact hn b hb e
  · intro t ht
    rcases List.mem_append.1 ht with ht | ht
    · exact h.tabParent t ht
    · simp only [List.mem_singleton] at ht
      subst ht
      exact hfk
  · intro b hb e
    have := lt_newId_map (fun x => x.id) hb
    simp only at e
    omega
  · intro v hv
    rcases List.mem_append.1 hv with hv | hv
    · obtain ⟨t, ht, e⟩ := h.verParent v hv
      exact ⟨t, List.mem_append.2 (Or.inl ht), e⟩
    · simp only [List.mem_singleton] at hv
      subst hv
      exact ⟨_, List.mem_append.2 (Or.inr (List.mem_singleton.2 rfl)), rfl⟩
  · intro c hc
    obtain ⟨v, hv, e⟩ := h.colParent c hc
    exact ⟨v, List.mem_append.2 (Or.inl hv), e⟩

/-- Adding columns to a version that has none. -/
theorem wf_newCols (s : Cat) (h : WF s) (cs : List Col) (vid : Nat) (hv : ∃ v ∈ s.vers, v.id = vid)
    (hcs : ∀ c ∈ cs, c.verId = vid) (hno : ∀ c ∈ s.cols, c.verId ≠ vid) (hd : cs.Pairwise (fun a b => a.name ≠ b.name)) :
    WF { s with cols := s.cols ++ cs } := by
  refine { h with colNames := ?_, colParent := ?_ }
  · rw [List.pairwise_append]
    refine ⟨h.colNames, hd.imp (fun hab e => hab e.2), ?_⟩
    rintro a ha b hb ⟨e, _⟩
    rw [hcs b hb] at e
    exact hno a ha e
  · intro c hc
    rcases List.mem_append.1 hc with hc | hc
    · exact h.colParent c hc
    · obtain ⟨v, hv, e⟩ := hv
      exact ⟨v, hv, by rw [e, hcs c hc]⟩

theorem wf_repoCreateTab (s : Cat) (h : WF s) (collId : Nat) (n : String) (columns : List (String × String)) (uuid : Nat)
    (now : Int) (ok : Bool) : WF (repoCreateTab s collId n columns uuid now ok).1 := by
  simp only [repoCreateTab]
  split
  · exact h
  · next hn =>
    have hn := any_false (by simpa using hn : s.tabs.any (fun c => c.name == n && c.collId == collId) = false)
    split
    · exact h
    · next hfk =>
      simp only [Bool.not_eq_true', Bool.not_eq_false, List.any_eq_true, beq_iff_eq] at hfk
      have h1 := wf_newTab s h collId n uuid now (by
        rintro t ht ⟨e1, e2⟩
        have := hn t ht
        simp [e1, e2] at this) hfk
      split
      · exact h1
      · split
        · exact h1
        · split
          · exact h1
          · next hdist =>
            simp only [Bool.not_eq_true', Bool.not_eq_false] at hdist
            refine wf_newCols _ h1 _ (newId (s.vers.map (·.id))) ⟨_, List.mem_append.2 (Or.inr (List.mem_singleton.2 rfl)), rfl⟩ ?_ ?_ ?_
            · intro c hc
              obtain ⟨x, _, rfl⟩ := List.mem_map.1 hc
              rfl
            · intro c hc e
              obtain ⟨v, hv, e2⟩ := h.colParent c hc
              have := lt_newId_map (fun x => x.id) hv
              omega
            · rw [List.pairwise_map]
              exact distinct_pairwise columns hdist

theorem wf_repoDeleteOld (s : Cat) (h : WF s) (tableId : Nat) : WF (repoDeleteOld s tableId) := by
  simp only [repoDeleteOld]
  refine { h with verIds := pairwise_filter _ h.verIds, colNames := pairwise_filter _ h.colNames, verParent := ?_, colParent := ?_ }
  · intro v hv
    exact h.verParent v (List.mem_filter.1 hv).1
  · intro c hc
    obtain ⟨hc1, hc2⟩ := List.mem_filter.1 hc
    obtain ⟨v, hv, e⟩ := h.colParent c hc1
    refine ⟨v, List.mem_filter.2 ⟨hv, ?_⟩, e⟩
    rw [e]
    exact hc2

theorem wf_repoNewVersion (s : Cat) (h : WF s) (uuid : Nat) (version now : Int) (ok : Bool) :
    WF (repoNewVersion s uuid version now ok).1 := by
  simp only [repoNewVersion]
  split
  · exact h
  · next last _ =>
    split
    · exact h
    · next v hv =>
      obtain ⟨hv1, hv2⟩ := find_some hv
      have h1 : WF { s with vers := s.vers ++ [{ id := newId (s.vers.map (·.id)), tableId := v.tableId, version := version, time := now }] } := by
        refine { h with verIds := pairwise_snoc h.verIds ?_, verParent := ?_, colParent := ?_ }
        · intro b hb e
          have := lt_newId_map (fun x => x.id) hb
          simp only at e
          omega
        · intro w hw
          rcases List.mem_append.1 hw with hw | hw
          · exact h.verParent w hw
          · simp only [List.mem_singleton] at hw
            subst hw
            exact h.verParent v hv1
        · intro c hc
          obtain ⟨w, hw, e⟩ := h.colParent c hc
          exact ⟨w, List.mem_append.2 (Or.inl hw), e⟩
      split
      · exact h1
      · refine wf_newCols _ h1 _ (newId (s.vers.map (·.id))) ⟨_, List.mem_append.2 (Or.inr (List.mem_singleton.2 rfl)), rfl⟩ ?_ ?_ ?_
        · intro c hc
          obtain ⟨x, _, rfl⟩ := List.mem_map.1 hc
          rfl
        · intro c hc e
          obtain ⟨w, hw, e2⟩ := h.colParent c hc
          have := lt_newId_map (fun x => x.id) hw
          omega
        · rw [List.pairwise_map]
          refine List.Pairwise.imp_of_mem ?_ (pairwise_filter _ h.colNames)
          intro a b ha hb hab e
          have ha2 := (List.mem_filter.1 ha).2
          have hb2 := (List.mem_filter.1 hb).2
          simp only [beq_iff_eq] at ha2 hb2
          exact hab ⟨by rw [ha2, hb2], e⟩

theorem wf_repoRename (s : Cat) (h : WF s) (tableId : Nat) (n : String) (newColl : Option Nat) :
    WF (repoRename s tableId n newColl).1 := by
  simp only [repoRename]
  split
  · exact h
  · next t ht =>
    obtain ⟨ht1, ht2⟩ := find_some ht
    split
    · exact h
    · next hn =>
      have hn := any_false (by simpa using hn : s.tabs.any (fun u => u.id != tableId && u.name == n && u.collId == newColl.getD t.collId) = false)
      split
      · exact h
      · next hfk =>
        simp only [Bool.not_eq_true', Bool.not_eq_false, List.any_eq_true, beq_iff_eq] at hfk
        have hid : ∀ u : Tab, (if u.id = tableId then { u with name := n, collId := newColl.getD t.collId } else u).id = u.id := by
          intro u; split <;> rfl
        refine { h with tabIds := ?_, tabNames := ?_, tabParent := ?_, verParent := ?_ }
        · rw [List.pairwise_map]
          refine h.tabIds.imp ?_
          intro a b hab
          rw [hid, hid]
          exact hab
        · rw [List.pairwise_map]
          refine List.Pairwise.imp_of_mem ?_ (h.tabIds.and h.tabNames)
          intro a b ha hb hab
          have hna := hn a ha
          have hnb := hn b hb
          by_cases e1 : a.id = tableId <;> by_cases e2 : b.id = tableId
          · exact absurd (e1.trans e2.symm) hab.1
          · rw [if_pos e1, if_neg e2]
            rintro ⟨f1, f2⟩
            simp only at f1 f2
            simp [e2, ← f1, ← f2] at hnb
          · rw [if_neg e1, if_pos e2]
            rintro ⟨f1, f2⟩
            simp only at f1 f2
            simp [e1, ← f1, ← f2] at hna
          · rw [if_neg e1, if_neg e2]
            exact hab.2
        · intro u hu
          obtain ⟨w, hw, rfl⟩ := List.mem_map.1 hu
          split
          · exact hfk
          · exact h.tabParent w hw
        · intro v hv
          obtain ⟨u, hu, e⟩ := h.verParent v hv
          exact ⟨_, List.mem_map_of_mem hu, by rw [hid]; exact e⟩

theorem wf_repoCreateFn (s : Cat) (h : WF s) (dbId : Nat) (n : String) (o : Bool) (d : String) :
    WF (repoCreateFn s dbId n o d).1 := by
  simp only [repoCreateFn]
  split
  · next f hf =>
    split
    · have hid : ∀ g : Fn, (if g.id = f.id then { g with details := d } else g).id = g.id ∧
          (if g.id = f.id then { g with details := d } else g).dbId = g.dbId ∧
          (if g.id = f.id then { g with details := d } else g).name = g.name := by
        intro g; split <;> exact ⟨rfl, rfl, rfl⟩
      refine { h with fnIds := ?_, fnNames := ?_, fnParent := ?_ }
      · rw [List.pairwise_map]
        refine h.fnIds.imp ?_
        intro a b hab
        rw [(hid a).1, (hid b).1]
        exact hab
      · rw [List.pairwise_map]
        refine h.fnNames.imp ?_
        intro a b hab
        rw [(hid a).2.1, (hid b).2.1, (hid a).2.2, (hid b).2.2]
        exact hab
      · intro g hg
        obtain ⟨g', hg', rfl⟩ := List.mem_map.1 hg
        rw [(hid g').2.1]
        exact h.fnParent g' hg'
    · exact h
  · next hf =>
    rw [List.find?_eq_none] at hf
    split
    · exact h
    · next hfk =>
      simp only [Bool.not_eq_true', Bool.not_eq_false, List.any_eq_true, beq_iff_eq] at hfk
      refine { h with fnIds := pairwise_snoc h.fnIds ?_, fnNames := pairwise_snoc h.fnNames ?_, fnParent := ?_ }
      · intro b hb e
        have := lt_newId_map (fun x => x.id) hb
        simp only at e
        omega
      · rintro b hb ⟨e1, e2⟩
        exact hf b hb (by simp [e1, e2])
      · intro g hg
        rcases List.mem_append.1 hg with hg | hg
        · exact h.fnParent g hg
        · simp only [List.mem_singleton] at hg
          subst hg
          exact hfk

theorem wf_repoDropFn (s : Cat) (h : WF s) (dbId : Nat) (names : List String) : WF (repoDropFn s dbId names).1 := by
  simp only [repoDropFn]
  split
  · refine { h with fnIds := pairwise_filter _ h.fnIds, fnNames := pairwise_filter _ h.fnNames, fnParent := ?_ }
    intro g hg
    exact h.fnParent g (List.mem_filter.1 hg).1
  · exact h

theorem wf_repoDeleteDb (s : Cat) (h : WF s) (id : Nat) : WF (repoDeleteDb s id).1 := by
  simp only [repoDeleteDb]
  split
  · have h1 := wf_dropColls s h (·.dbId == id)
    refine { h1 with dbIds := pairwise_filter _ h1.dbIds, dbNames := pairwise_filter _ h1.dbNames, collParent := ?_, fnIds := pairwise_filter _ h1.fnIds, fnNames := pairwise_filter _ h1.fnNames, fnParent := ?_ }
    · intro c hc
      obtain ⟨hc1, hc2⟩ := List.mem_filter.1 hc
      obtain ⟨d, hd, e⟩ := h.collParent c hc1
      refine ⟨d, List.mem_filter.2 ⟨hd, ?_⟩, e⟩
      rw [e]
      simpa using hc2
    · intro f hf
      obtain ⟨hf1, hf2⟩ := List.mem_filter.1 hf
      obtain ⟨d, hd, e⟩ := h.fnParent f hf1
      refine ⟨d, List.mem_filter.2 ⟨hd, ?_⟩, e⟩
      rw [e]
      exact hf2
  · exact h

theorem wf_repoDeleteColl (s : Cat) (h : WF s) (id : Nat) : WF (repoDeleteColl s id).1 := by
  simp only [repoDeleteColl]
  split
  · exact wf_dropColls s h _
  · exact h

theorem wf_repoDeleteTab (s : Cat) (h : WF s) (id : Nat) : WF (repoDeleteTab s id).1 := by
  simp only [repoDeleteTab]
  split
  · exact wf_dropTabs s h _
  · exact h

/-! ### the stores -/

theorem fst_createDb (s : Cat) (n : String) : (createDb s n).1 = (repoCreateDb s n).1 := by
  simp only [createDb]
  split <;> simp_all

theorem fst_deleteDb (s : Cat) (n : String) : (deleteDb s n).1 = s ∨ ∃ id, (deleteDb s n).1 = (repoDeleteDb s id).1 := by
  simp only [deleteDb]
  split
  · exact Or.inl rfl
  · next d _ => right; refine ⟨d.id, ?_⟩; split <;> simp_all

theorem fst_createSchema (s : Cat) (db n : String) :
    (createSchema s db n).1 = s ∨ ∃ id, (createSchema s db n).1 = (repoCreateColl s id n).1 := by
  simp only [createSchema]
  split
  · exact Or.inl rfl
  · split
    · exact Or.inl rfl
    · next d _ => right; refine ⟨d.id, ?_⟩; split <;> simp_all

theorem fst_deleteSchema (s : Cat) (db n : String) :
    (deleteSchema s db n).1 = s ∨ ∃ id, (deleteSchema s db n).1 = (repoDeleteColl s id).1 := by
  simp only [deleteSchema]
  split
  · exact Or.inl rfl
  · next d _ => right; refine ⟨d.id, ?_⟩; split <;> simp_all

theorem fst_createTable (s : Cat) (db sch n : String) (cs : List (String × String)) (u : Nat) (now : Int) (ok : Bool) :
    (createTable s db sch n cs u now ok).1 = s ∨
      ∃ id, (createTable s db sch n cs u now ok).1 = (repoCreateTab s id n cs u now ok).1 := by
  simp only [createTable]
  split
  · exact Or.inl rfl
  · next d _ => right; refine ⟨d.id, ?_⟩; split <;> simp_all

theorem fst_newVersion (s : Cat) (u : Nat) (v now : Int) (ok : Bool) :
    (newVersion s u v now ok).1 = (repoNewVersion s u v now ok).1 := by
  simp only [newVersion]
  split <;> simp_all

theorem fst_deleteOld (s : Cat) (db sch n : String) :
    (deleteOldVersions s db sch n).1 = s ∨ ∃ id, (deleteOldVersions s db sch n).1 = repoDeleteOld s id := by
  simp only [deleteOldVersions]
  split
  · exact Or.inl rfl
  · next t _ => exact Or.inr ⟨t.id, rfl⟩

theorem fst_rename (s : Cat) (db os on ns nn : String) :
    (renameTable s db os on ns nn).1 = s ∨ ∃ id c, (renameTable s db os on ns nn).1 = (repoRename s id nn c).1 := by
  simp only [renameTable]
  split
  · exact Or.inl rfl
  · next t _ =>
    split
    · exact Or.inl rfl
    · next c _ => right; refine ⟨t.id, c, ?_⟩; split <;> simp_all

theorem fst_deleteTable (s : Cat) (db sch n : String) :
    (deleteTable s db sch n).1 = s ∨ ∃ id, (deleteTable s db sch n).1 = (repoDeleteTab s id).1 := by
  simp only [deleteTable]
  split
  · exact Or.inl rfl
  · next d _ => right; refine ⟨d.id, ?_⟩; split <;> simp_all

theorem fst_createFunction (s : Cat) (db n : String) (o : Bool) (d : String) :
    (createFunction s db n o d).1 = s ∨ ∃ id, (createFunction s db n o d).1 = (repoCreateFn s id n o d).1 := by
  simp only [createFunction]
  split
  · exact Or.inl rfl
  · next x _ => right; refine ⟨x.id, ?_⟩; split <;> simp_all

theorem fst_deleteFunctions (s : Cat) (db : String) (i : Bool) (ns : List String) :
    (deleteFunctions s db i ns).1 = s ∨ ∃ id, (deleteFunctions s db i ns).1 = (repoDropFn s id ns).1 := by
  simp only [deleteFunctions]
  split
  · exact Or.inl rfl
  · next x _ =>
    right; refine ⟨x.id, ?_⟩
    split <;> (try split) <;> simp_all

/-- Every operation keeps the invariant. -/
theorem C31_step (s : Cat) (h : WF s) (op : Op) : WF (exec s op).1 := by
  cases op with
  | createDb n => simp only [exec, fst_createDb]; exact wf_repoCreateDb s h n
  | deleteDb n =>
    rcases fst_deleteDb s n with e | ⟨id, e⟩ <;> simp only [exec, e]
    · exact h
    · exact wf_repoDeleteDb s h id
  | createSchema db n =>
    rcases fst_createSchema s db n with e | ⟨id, e⟩ <;> simp only [exec, e]
    · exact h
    · exact wf_repoCreateColl s h id n
  | deleteSchema db n =>
    rcases fst_deleteSchema s db n with e | ⟨id, e⟩ <;> simp only [exec, e]
    · exact h
    · exact wf_repoDeleteColl s h id
  | createTable db sch n cs u now ok =>
    rcases fst_createTable s db sch n cs u now ok with e | ⟨id, e⟩ <;> simp only [exec, e]
    · exact h
    · exact wf_repoCreateTab s h id n cs u now ok
  | newVersion u v now ok => simp only [exec, fst_newVersion]; exact wf_repoNewVersion s h u v now ok
  | deleteOldVersions db sch n =>
    rcases fst_deleteOld s db sch n with e | ⟨id, e⟩ <;> simp only [exec, e]
    · exact h
    · exact wf_repoDeleteOld s h id
  | renameTable db os on ns nn =>
    rcases fst_rename s db os on ns nn with e | ⟨id, c, e⟩ <;> simp only [exec, e]
    · exact h
    · exact wf_repoRename s h id nn c
  | deleteTable db sch n =>
    rcases fst_deleteTable s db sch n with e | ⟨id, e⟩ <;> simp only [exec, e]
    · exact h
    · exact wf_repoDeleteTab s h id
  | createFunction db n o d =>
    rcases fst_createFunction s db n o d with e | ⟨id, e⟩ <;> simp only [exec, e]
    · exact h
    · exact wf_repoCreateFn s h id n o d
  | deleteFunctions db i ns =>
    rcases fst_deleteFunctions s db i ns with e | ⟨id, e⟩ <;> simp only [exec, e]
    · exact h
    · exact wf_repoDropFn s h id ns

theorem wf_empty : WF {} := by
  constructor <;> simp

theorem wf_run (s : Cat) (h : WF s) (ops : List Op) : WF (run s ops) := by
  induction ops generalizing s with
  | nil => exact h
  | cons op ops ih => exact ih _ (C31_step s h op)

/-- **C31**: after any sequence of catalog operations (including failing ones) identifiers are unique,
database names, schema names per database, table names per schema, column names per version and function
names per database are unique, and every parent exists. -/
theorem C31_intact (ops : List Op) : WF (run {} ops) := wf_run {} wf_empty ops

/-- Example history, with a failing statement. -/
def exOps : List Op :=
  [.createDb "default", .createSchema "default" "public", .createSchema "default" "s2",
   .createTable "default" "public" "t" [("a", "int"), ("b", "text")] 77 100 true, .createTable "default" "public" "t" [] 78 101 true,
   .createTable "default" "s2" "t" [("x", "int")] 79 102 true, .newVersion 77 1 103 true, .newVersion 77 2 104 true,
   .createFunction "default" "f" false "d1", .createFunction "default" "g" false "d2"]

/-- The state after it. -/
def exCat : Cat :=
  { dbs := [⟨1, "default"⟩], colls := [⟨1, 1, "public"⟩, ⟨2, 1, "s2"⟩], tabs := [⟨1, 1, "t", 77⟩, ⟨2, 2, "t", 79⟩]
    vers := [⟨1, 1, 0, 100⟩, ⟨2, 2, 0, 102⟩, ⟨3, 1, 1, 103⟩, ⟨4, 1, 2, 104⟩]
    cols := [⟨1, "a", "int"⟩, ⟨1, "b", "text"⟩, ⟨2, "x", "int"⟩, ⟨3, "a", "int"⟩, ⟨3, "b", "text"⟩, ⟨4, "a", "int"⟩, ⟨4, "b", "text"⟩]
    fns := [⟨1, 1, "f", "d1"⟩, ⟨2, 1, "g", "d2"⟩] }

example : run {} exOps = exCat := by decide +kernel

theorem wf_exCat : WF exCat := by
  have h : run {} exOps = exCat := by decide +kernel
  rw [← h]
  exact C31_intact exOps

end Seafowl.Catalog
