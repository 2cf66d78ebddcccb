import Verif.Sync.Names
import Verif.Sync.MergeCols

/-!
# C137: the names of columns in replication

Which names the columns of a replicated table, and the fields of the messages, may have.
-/

namespace Seafowl.Names

open Seafowl.Sync

/-! ### Specification -/

/-- An SQL identifier that needs no quotes, in ASCII. -/
def isWord (s : String) : Bool :=
  match s.toList with
  | [] => false
  | c :: cs => (c.isAlpha || c == '_') && cs.all (fun c => c.isAlphanum || c == '_')

/-- In lower case. -/
def lower (s : String) : String := String.ofList (s.toList.map Char.toLower)

/-- What is assumed of the library: identifiers without quotes are folded to lower case. -/
def FoldsWords (parse : String → List String) : Prop := ∀ s, isWord s = true → parse s = [lower s]

/-- The text stands for the column of that name. -/
def Plain (parse : String → List String) (s : String) : Prop := colOf parse s = ⟨[], s⟩

theorem plain_word {parse : String → List String} (hp : FoldsWords parse) {s : String}
    (hw : isWord s = true) (hl : lower s = s) : Plain parse s := by
  simp [Plain, colOf, hp s hw, hl]

theorem colOf_word {parse : String → List String} (hp : FoldsWords parse) {s : String}
    (hw : isWord s = true) : colOf parse s = ⟨[], lower s⟩ := by
  simp [colOf, hp s hw]

/-- A message (or buffered item) whose fields have different plain names, none of them nested, with a
consistent sync schema. -/
structure ItemOk (parse : String → List String) (pks : List String) (cols : List SyncCol) : Prop where
  schema : SchemaOk pks (descs cols)
  fields : (cols.map (·.field.name)).Nodup
  plain : ∀ c ∈ cols, Plain parse c.field.name
  flat : ∀ c ∈ cols, c.field.nested = 0
  free : ∀ c ∈ cols, c.field.name ≠ lowerRel ∧ c.field.name ≠ upperRel

/-- A table of flat columns with different names, none of them a name the query uses for itself, that has
the key columns. -/
structure TableOk (pks : List String) (t : List TCol) : Prop where
  flat : ∀ c ∈ t, c.below = []
  nodup : (t.map (·.name)).Nodup
  free : ∀ c ∈ t, c.name ≠ lowerRel ∧ c.name ≠ upsertCol
  keys : ∀ n ∈ pks, n ∈ t.map (·.name)

/-! ### Canonical names -/

theorem canon_inj {r r' : Role} {n n' : String} (h : canon r n = canon r' n') : r = r' ∧ n = n' := by
  have h1 : (canon r n).toList = (canon r' n').toList := by rw [h]
  cases r <;> cases r' <;> simp [canon, String.toList_append] at h1 <;>
    first
      | exact ⟨rfl, String.toList_injective h1⟩
      | exact ⟨rfl, h1⟩

theorem canon_ne {r : Role} {n : String} :
    canon r n ≠ lowerRel ∧ canon r n ≠ upperRel ∧ canon r n ≠ upsertCol := by
  refine ⟨?_, ?_, ?_⟩ <;>
  · intro h
    have h1 := congrArg String.toList h
    cases r <;> simp [canon, String.toList_append, lowerRel, upperRel, upsertCol] at h1

theorem lower_canon (r : Role) (n : String) : lower (canon r n) = canon r (lower n) := by
  apply String.toList_injective
  cases r <;> simp [lower, canon, String.toList_append] <;> decide

theorem isWord_canon (r : Role) {n : String} (h : isWord n = true) : isWord (canon r n) = true := by
  have h2 : n.toList.all (fun c => c.isAlphanum || c == '_') = true := by
    unfold isWord at h
    split at h
    · simp at h
    · rename_i c cs e
      rw [e]
      simp only [Bool.and_eq_true, List.all_cons] at h ⊢
      refine ⟨?_, h.2⟩
      have := h.1
      simp only [Char.isAlphanum, Bool.or_eq_true] at this ⊢
      rcases this with h | h
      · exact Or.inl (Or.inl h)
      · exact Or.inr h
  unfold isWord
  cases r <;> simp [canon, String.toList_append, h2] <;> decide

/-! ### Lookups -/

theorem finds_one {sc : Scope} {n : String} (hn : (sc.map (·.name)).Nodup) (hm : n ∈ sc.map (·.name)) :
    finds sc ⟨[], n⟩ = true := by
  simp only [finds, if_true, beq_iff_eq]
  induction sc with
  | nil => simp at hm
  | cons a l ih =>
    simp only [List.map_cons, List.nodup_cons] at hn
    simp only [List.map_cons, List.mem_cons] at hm
    by_cases ha : a.name = n
    · have : l.filter (fun d => decide (d.name = n)) = [] := by
        rw [List.filter_eq_nil_iff]
        intro d hd
        simp only [decide_eq_true_eq]
        intro he
        exact hn.1 (List.mem_map.2 ⟨d, hd, by rw [he, ha]⟩)
      rw [List.filter_cons, if_pos (by simpa using ha), this]
      rfl
    · rw [List.filter_cons, if_neg (by simpa using ha)]
      exact ih hn.2 (hm.resolve_left (fun h => ha h.symm))

theorem finds_none {sc : Scope} {n : String} (h : n ∉ sc.map (·.name)) : finds sc ⟨[], n⟩ = false := by
  have : sc.filter (fun d => decide (d.name = n)) = [] := by
    rw [List.filter_eq_nil_iff]
    intro d hd
    simp only [decide_eq_true_eq]
    intro he
    exact h (List.mem_map.2 ⟨d, hd, he⟩)
  simp [finds, this]

theorem finds_mem {sc : Scope} {n : String} (h : finds sc ⟨[], n⟩ = true) : n ∈ sc.map (·.name) := by
  refine Classical.byContradiction fun hc => ?_
  rw [finds_none hc] at h
  exact absurd h (by decide)

/-- A flag column is found if it is there once and no other column has its name. -/
theorem finds_flag {sc : Scope} {n : String} {c : ColRef} (h : sc.filter (fun d => decide (d.name = n)) = [c]) :
    finds sc ⟨[], n⟩ = true := by
  simp [finds, h]

theorem finds_exact {sc : Scope} {r n : String} (h : ⟨[r], n⟩ ∈ sc) : finds sc ⟨[r], n⟩ = true := by
  simp only [finds, reduceCtorEq, if_false]
  exact List.contains_iff_mem.2 h

theorem scan_names (rel : String) (cols : List SyncCol) :
    (scan rel cols).map (·.name) = cols.map (·.field.name) := by
  simp [scan]

theorem filter_scan {rel : String} {cols : List SyncCol} {n : String}
    (h : ∀ c ∈ cols, c.field.name ≠ n) : (scan rel cols).filter (fun d => decide (d.name = n)) = [] := by
  rw [List.filter_eq_nil_iff]
  intro d hd
  simp only [scan, List.mem_map] at hd
  obtain ⟨c, hc, rfl⟩ := hd
  simpa using h c hc

theorem findCol_some {cols : List SyncCol} {r : Role} {n : String} {c : SyncCol}
    (h : findCol cols r n = some c) : c ∈ cols ∧ c.role = r ∧ c.name = n := by
  unfold findCol at h
  have h1 := List.mem_of_find?_eq_some h
  have h2 := List.find?_some h
  simp only [Bool.and_eq_true, decide_eq_true_eq] at h2
  exact ⟨List.mem_reverse.1 h1, h2.1, h2.2⟩

theorem findCol_of_mem {cols : List SyncCol} {r : Role} {n : String} (h : Desc.mk r n ∈ descs cols) :
    ∃ c, findCol cols r n = some c := by
  simp only [descs, List.mem_map] at h
  obtain ⟨c, hc, he⟩ := h
  cases hf : findCol cols r n with
  | some c' => exact ⟨c', rfl⟩
  | none =>
    unfold findCol at hf
    rw [List.find?_eq_none] at hf
    have := hf c (List.mem_reverse.2 hc)
    simp only [Desc.mk.injEq] at he
    simp [he.1, he.2] at this

theorem mem_descs {cols : List SyncCol} {c : SyncCol} (h : c ∈ cols) : Desc.mk c.role c.name ∈ descs cols :=
  List.mem_map.2 ⟨c, h, rfl⟩

/-! ### Merging -/

/-- The invariant of the loop over the items. -/
structure LowOk (parse : String → List String) (pks : List String) (L : Low) : Prop where
  item : ItemOk parse pks L.cols
  scope : L.scope = scan lowerRel L.cols

theorem flatLen_zero {fs : List Field} (h : ∀ f ∈ fs, f.nested = 0) : flatLen fs = fs.length := by
  induction fs with
  | nil => rfl
  | cons f fs ih =>
    have h1 := h f (by simp)
    have h2 := ih (fun g hg => h g (by simp [hg]))
    simp only [flatLen, List.map_cons, List.sum_cons, List.length_cons] at h2 ⊢
    rw [h2, h1]
    omega

theorem flatLen_ge (fs : List Field) : fs.length ≤ flatLen fs := by
  induction fs with
  | nil => simp [flatLen]
  | cons f fs ih =>
    simp only [flatLen, List.map_cons, List.sum_cons, List.length_cons] at ih ⊢
    omega

theorem flatLen_gt {fs : List Field} {f : Field} (hf : f ∈ fs) (h : f.nested ≠ 0) :
    fs.length < flatLen fs := by
  induction fs with
  | nil => simp at hf
  | cons g gs ih =>
    have h1 := flatLen_ge gs
    simp only [flatLen, List.map_cons, List.sum_cons, List.length_cons] at h1 ih ⊢
    rcases List.mem_cons.1 hf with rfl | hf
    · omega
    · have := ih hf
      omega

theorem countOk_iff {cols : List SyncCol} : countOk cols = true ↔ ∀ c ∈ cols, c.field.nested = 0 := by
  simp only [countOk, decide_eq_true_eq]
  constructor
  · intro h c hc
    refine Classical.byContradiction fun hn => ?_
    have := flatLen_gt (fs := cols.map (·.field)) (List.mem_map.2 ⟨c, hc, rfl⟩) hn
    rw [List.length_map] at this
    omega
  · intro h
    rw [flatLen_zero, List.length_map]
    intro f hf
    obtain ⟨c, hc, rfl⟩ := List.mem_map.1 hf
    exact h c hc

theorem mergedField_name (L U : List SyncCol) (d : Desc) : (mergedField L U d).name = canon d.role d.name := by
  unfold mergedField
  split
  · rfl
  · split <;> rfl

theorem descs_merged (L U : List SyncCol) (ds : List Desc) : descs (mergedCols L U ds) = ds := by
  simp only [descs, mergedCols, List.map_map]
  exact Eq.trans (List.map_congr_left (fun d _ => rfl)) (List.map_id ds)

/-- All canonical names of the columns are plain. -/
def CanonPlain (parse : String → List String) (cols : List SyncCol) : Prop :=
  ∀ c ∈ cols, ∀ r, Plain parse (canon r c.name)

theorem merged_ok {parse : String → List String} {pks : List String} {L U : List SyncCol} {ds : List Desc}
    (hs : SchemaOk pks ds) (hL : ∀ c ∈ L, c.field.nested = 0) (hU : ∀ c ∈ U, c.field.nested = 0)
    (hp : ∀ d ∈ ds, ∀ r, Plain parse (canon r d.name)) :
    ∃ L', merged (mergedCols L U ds) = some L' ∧ LowOk parse pks L' ∧ descs L'.cols = ds ∧
      CanonPlain parse L'.cols := by
  have hflat : ∀ c ∈ mergedCols L U ds, c.field.nested = 0 := by
    intro c hc
    obtain ⟨d, hd, rfl⟩ := List.mem_map.1 hc
    simp only [mergedField]
    split
    · rename_i c hf; exact hL _ (findCol_some hf).1
    · split
      · rename_i c hf; exact hU _ (findCol_some hf).1
      · rfl
  refine ⟨⟨mergedCols L U ds, scan lowerRel (mergedCols L U ds)⟩, ?_, ⟨⟨?_, ?_, ?_, hflat, ?_⟩, rfl⟩,
    descs_merged _ _ _, ?_⟩
  · simp only [merged, countOk_iff.2 hflat, if_true]
  · rw [descs_merged]; exact hs
  · have : (mergedCols L U ds).map (·.field.name) = ds.map (fun d => canon d.role d.name) := by
      simp [mergedCols, mergedField_name]
    rw [this]
    have h2 := hs.nodup
    clear hs hp hflat this
    induction ds with
    | nil => simp
    | cons d ds ih =>
      simp only [List.map_cons, List.nodup_cons] at h2 ⊢
      refine ⟨?_, ih h2.2⟩
      intro hm
      obtain ⟨e, he, hce⟩ := List.mem_map.1 hm
      obtain ⟨h3, h4⟩ := canon_inj hce
      apply h2.1
      have : d = e := by cases d; cases e; simp_all
      rw [this]; exact he
  · intro c hc
    obtain ⟨d, hd, rfl⟩ := List.mem_map.1 hc
    rw [mergedField_name]
    exact hp d hd _
  · intro c hc
    obtain ⟨d, hd, rfl⟩ := List.mem_map.1 hc
    rw [mergedField_name]
    exact ⟨canon_ne.1, canon_ne.2.1⟩
  · intro c hc r
    obtain ⟨d, hd, rfl⟩ := List.mem_map.1 hc
    exact hp d hd r

theorem name_mem_descs {cols : List SyncCol} {d : Desc} (h : d ∈ descs cols) : ∃ c ∈ cols, c.name = d.name := by
  obtain ⟨c, hc, rfl⟩ := List.mem_map.1 h
  exact ⟨c, hc, rfl⟩

theorem merged_plain {parse : String → List String} {pks : List String} {L U : List SyncCol}
    (hL : SchemaOk pks (descs L)) (hU : SchemaOk pks (descs U)) (cL : CanonPlain parse L)
    (cU : CanonPlain parse U) : ∀ d ∈ Sync.mergedCols (descs L) (descs U), ∀ r, Plain parse (canon r d.name) := by
  intro d hd r
  have key : (∃ c ∈ L, c.name = d.name) ∨ (∃ c ∈ U, c.name = d.name) := by
    rcases (mem_mergedCols hL hU).1 hd with h | h | ⟨-, ⟨h, -⟩ | ⟨h, -⟩⟩
    · exact Or.inl (name_mem_descs h)
    · exact Or.inr (name_mem_descs h)
    · exact Or.inl (name_mem_descs (d := ⟨.value, d.name⟩) h)
    · exact Or.inr (name_mem_descs (d := ⟨.value, d.name⟩) h)
  rcases key with ⟨c, hc, he⟩ | ⟨c, hc, he⟩
  · rw [← he]; exact cL c hc r
  · rw [← he]; exact cU c hc r

theorem scan_found {parse : String → List String} {pks : List String} {cols : List SyncCol}
    (h : ItemOk parse pks cols) (rel : String) {c : SyncCol} (hc : c ∈ cols) :
    finds (scan rel cols) (colOf parse c.field.name) = true := by
  rw [h.plain c hc]
  apply finds_one
  · rw [scan_names]; exact h.fields
  · rw [scan_names]; exact List.mem_map.2 ⟨c, hc, rfl⟩

theorem pk_mem {pks : List String} {S : Schema} (h : SchemaOk pks S) {n : String} :
    (Desc.mk .oldPk n ∈ S ↔ n ∈ pks) ∧ (Desc.mk .newPk n ∈ S ↔ n ∈ pks) := by
  constructor
  · rw [← mem_names, h.oldPk]
  · rw [← mem_names, h.newPk]

theorem union_ok {parse : String → List String} {pks : List String} {L : Low} {U : List SyncCol}
    (hL : LowOk parse pks L) (hU : ItemOk parse pks U) (cL : CanonPlain parse L.cols)
    (cU : CanonPlain parse U) :
    ∃ L', unionNames parse L U = some L' ∧ LowOk parse pks L' ∧ CanonPlain parse L'.cols := by
  have hE := mergeUnion_eq hL.item.schema hU.schema
  obtain ⟨L', h1, h2, -, h4⟩ := merged_ok (parse := parse) (L := L.cols) (U := U)
    (mergedCols_ok hL.item.schema hU.schema)
    hL.item.flat hU.flat (merged_plain hL.item.schema hU.schema cL cU)
  refine ⟨L', ?_, h2, h4⟩
  unfold unionNames
  rw [if_pos, hE]
  · exact h1
  · simp only [Bool.and_eq_true, List.all_eq_true]
    refine ⟨⟨fun c hc => ?_, fun c hc => ?_⟩, fun c hc => ?_⟩
    · rw [hL.scope]; exact scan_found hL.item _ hc
    · have hd := mem_descs hc
      have hpk : (c.role = .oldPk ∨ c.role = .newPk) → pkFound parse U c = true := by
        intro hr
        have hm : Desc.mk c.role c.name ∈ descs U := by
          rcases hr with hr | hr <;> rw [hr] at hd ⊢
          · exact (pk_mem hU.schema).1.2 ((pk_mem hL.item.schema).1.1 hd)
          · exact (pk_mem hU.schema).2.2 ((pk_mem hL.item.schema).2.1 hd)
        obtain ⟨u, hu⟩ := findCol_of_mem hm
        simp only [pkFound, hu]
        exact scan_found hU _ (findCol_some hu).1
      cases hr : c.role
      · simp [hpk (Or.inl hr)]
      · simp [hpk (Or.inr hr)]
      · rfl
      · rfl
    · rw [scan_found hU _ hc]; simp

theorem flagged_filter {sc : Scope} {f : String} (h : sc.filter (fun d => decide (d.name = f)) = []) :
    (flagged sc f).filter (fun d => decide (d.name = f)) = [⟨[], f⟩] := by
  simp [flagged, List.filter_append, h]

theorem flagged_other {sc : Scope} {f n : String} (hf : f ≠ n)
    (h : sc.filter (fun d => decide (d.name = n)) = []) :
    (flagged sc f).filter (fun d => decide (d.name = n)) = [] := by
  simp [flagged, List.filter_append, h, hf]

theorem join_ok {parse : String → List String} {pks : List String} {L : Low} {U : List SyncCol}
    (hL : LowOk parse pks L) (hU : ItemOk parse pks U) (cL : CanonPlain parse L.cols)
    (cU : CanonPlain parse U) :
    ∃ L', joinNames parse L U = some L' ∧ LowOk parse pks L' ∧ CanonPlain parse L'.cols := by
  have hE := mergeJoin_eq hL.item.schema hU.schema
  obtain ⟨L', h1, h2, -, h4⟩ := merged_ok (parse := parse) (L := L.cols) (U := U)
    (mergedCols_ok hL.item.schema hU.schema)
    hL.item.flat hU.flat (merged_plain hL.item.schema hU.schema cL cU)
  refine ⟨L', ?_, h2, h4⟩
  have fl : ∀ (rel f : String) (cols : List SyncCol), ItemOk parse pks cols → (∀ c ∈ cols, c.field.name ≠ f) →
      ∀ c ∈ cols, finds (flagged (scan rel cols) f) (colOf parse c.field.name) = true := by
    intro rel f cols hI hne c hc
    rw [hI.plain c hc]
    apply finds_one
    · simp only [flagged, List.map_append, scan_names, List.map_cons, List.map_nil]
      rw [List.nodup_append]
      refine ⟨hI.fields, by simp, ?_⟩
      intro a ha b hb
      obtain ⟨k, hk, rfl⟩ := List.mem_map.1 ha
      rw [List.mem_singleton.1 hb]
      exact hne k hk
    · simp only [flagged, List.map_append, scan_names, List.mem_append]
      exact Or.inl (List.mem_map.2 ⟨c, hc, rfl⟩)
  unfold joinNames
  rw [if_pos, hE]
  · exact h1
  · simp only [Bool.and_eq_true, List.all_eq_true]
    refine ⟨⟨⟨⟨fun c hc => ?_, ?_⟩, ?_⟩, fun c hc => ?_⟩, fun c hc => ?_⟩
    · cases hr : c.role <;> try rfl
      have hd := mem_descs hc
      rw [hr] at hd
      obtain ⟨l, hl⟩ := findCol_of_mem ((pk_mem hL.item.schema).2.2 ((pk_mem hU.schema).1.1 hd))
      have hlm := (findCol_some hl).1
      have a1 := fl upperRel upperRel U hU (fun c hc => (hU.free c hc).2) c hc
      have a2 := fl lowerRel lowerRel L.cols hL.item (fun c hc => (hL.item.free c hc).1) l hlm
      simp only [joinKeyFound, hl, keyFound, hL.scope, a1, a2, if_true]
      rfl
    · apply finds_flag
      rw [List.filter_append, flagged_filter (filter_scan fun c hc => (hU.free c hc).2),
        flagged_other (by decide) (by rw [hL.scope]; exact filter_scan fun c hc => (hL.item.free c hc).2)]
      rfl
    · apply finds_flag
      rw [List.filter_append, flagged_other (by decide) (filter_scan fun c hc => (hU.free c hc).1),
        flagged_filter (by rw [hL.scope]; exact filter_scan fun c hc => (hL.item.free c hc).1)]
      rfl
    · apply finds_exact
      rw [hL.scope]
      simp only [flagged, List.mem_append]
      exact Or.inr (Or.inl (List.mem_map.2 ⟨c, hc, rfl⟩))
    · apply finds_exact
      simp only [flagged, List.mem_append]
      exact Or.inl (Or.inl (List.mem_map.2 ⟨c, hc, rfl⟩))

theorem appendOnly_some {pks : List String} {it : Item} (hpk : pks ≠ []) (h : SchemaOk pks (descs it.cols)) :
    ∃ b, it.appendOnly = some b := by
  unfold Item.appendOnly
  rw [h.oldPk]
  cases pks with
  | nil => exact absurd rfl hpk
  | cons n ns => exact ⟨_, rfl⟩

theorem squash_ok {parse : String → List String} {pks : List String} (hpk : pks ≠ []) :
    ∀ (rest : List Item) (L : Low), LowOk parse pks L →
      (∀ it ∈ rest, ItemOk parse pks it.cols) →
      (rest ≠ [] → CanonPlain parse L.cols ∧ ∀ it ∈ rest, CanonPlain parse it.cols) →
      ∃ L', squashNames parse L rest = some L' ∧ LowOk parse pks L'
  | [], L, hL, _, _ => ⟨L, rfl, hL⟩
  | it :: rest, L, hL, hI, hc => by
    have hc' := hc (by simp)
    have hit := hI it (by simp)
    obtain ⟨b, hb⟩ := appendOnly_some hpk hit.schema
    have key : ∃ L', mergeNames parse L it = some L' ∧ LowOk parse pks L' ∧ CanonPlain parse L'.cols := by
      unfold mergeNames
      rw [hb]
      cases b
      · exact join_ok hL hit hc'.1 (hc'.2 it (by simp))
      · exact union_ok hL hit hc'.1 (hc'.2 it (by simp))
    obtain ⟨L', h1, h2, h3⟩ := key
    obtain ⟨L'', h4, h5⟩ := squash_ok hpk rest L' h2 (fun i hi => hI i (by simp [hi]))
      (fun _ => ⟨h3, fun i hi => hc'.2 i (by simp [hi])⟩)
    exact ⟨L'', by simp only [squashNames, h1]; exact h4, h5⟩

/-! ### Normalisation and application -/

theorem mem_normCols {cols : List SyncCol} {c : SyncCol} (h : c ∈ normCols cols) :
    ∃ c0 ∈ cols, c0.name = c.name ∧ c.field.name = canon c.role c.name ∧ c.field.nested = c0.field.nested ∧
      ((c0.role = .oldPk ∧ c.role = .newPk) ∨ (c0.role = c.role ∧ (c.role = .value ∨ c.role = .changed))) := by
  simp only [normCols, List.mem_filterMap] at h
  obtain ⟨c0, h0, h1⟩ := h
  refine ⟨c0, h0, ?_⟩
  cases hr : c0.role <;> simp only [hr, Option.some.injEq, reduceCtorEq] at h1
  · subst h1; simp
  · subst h1; simp
  · subst h1; simp

theorem normCols_mem {cols : List SyncCol} {c0 : SyncCol} (h : c0 ∈ cols) (hr : c0.role ≠ .newPk) :
    ∃ c ∈ normCols cols, c.name = c0.name ∧ c.field.nested = c0.field.nested := by
  simp only [normCols, List.mem_filterMap]
  cases hr' : c0.role
  · exact ⟨⟨.newPk, c0.name, { c0.field with name := canon .newPk c0.name }⟩,
      ⟨c0, h, by simp only [hr']⟩, rfl, rfl⟩
  · exact absurd hr' hr
  · exact ⟨⟨.value, c0.name, { c0.field with name := canon .value c0.name }⟩,
      ⟨c0, h, by simp only [hr']⟩, rfl, rfl⟩
  · exact ⟨⟨.changed, c0.name, { c0.field with name := canon .changed c0.name }⟩,
      ⟨c0, h, by simp only [hr']⟩, rfl, rfl⟩

theorem normCols_nodup {cols : List SyncCol} (h : (descs cols).Nodup) :
    ((normCols cols).map (·.field.name)).Nodup := by
  unfold List.Nodup at h ⊢
  rw [List.pairwise_map]
  unfold descs at h
  rw [List.pairwise_map] at h
  unfold normCols
  rw [List.pairwise_filterMap]
  refine h.imp ?_
  intro a b hab x hx y hy hxy
  apply hab
  cases ha : a.role <;> simp only [ha, Option.some.injEq, reduceCtorEq] at hx <;>
    cases hb : b.role <;> simp only [hb, Option.some.injEq, reduceCtorEq] at hy <;>
    subst hx <;> subst hy <;> simp only at hxy <;> have h3 := canon_inj hxy <;> simp_all

theorem norm_ok {parse : String → List String} {pks : List String} {L : Low} (hpk : pks ≠ [])
    (hL : LowOk parse pks L) : normNames parse L = some (normCols L.cols) := by
  unfold normNames
  rw [if_pos]
  simp only [Bool.and_eq_true, List.any_eq_true, List.all_eq_true, beq_iff_eq]
  refine ⟨⟨?_, fun c hc => ?_⟩, ?_⟩
  · cases hp : pks with
    | nil => exact absurd hp hpk
    | cons n ns =>
      obtain ⟨c, hc⟩ := findCol_of_mem ((pk_mem hL.item.schema).1.2 (show n ∈ pks by simp [hp]))
      exact ⟨c, (findCol_some hc).1, (findCol_some hc).2.1⟩
  · have h1 : finds L.scope (colOf parse c.field.name) = true := by
      rw [hL.scope]; exact scan_found hL.item _ hc
    unfold normFound
    cases hr : c.role <;> simp only [h1, Bool.true_and]
    have hd := mem_descs hc
    rw [hr] at hd
    obtain ⟨n, hn⟩ := findCol_of_mem ((pk_mem hL.item.schema).2.2 ((pk_mem hL.item.schema).1.1 hd))
    simp only [hn]
    rw [hL.scope]
    exact scan_found hL.item _ (findCol_some hn).1
  · rw [countOk_iff]
    intro c hc
    obtain ⟨c0, h0, -, -, h1, -⟩ := mem_normCols hc
    rw [h1]
    exact hL.item.flat c0 h0

theorem flatNames_flat {t : List TCol} (h : ∀ c ∈ t, c.below = []) : flatNames t = t.map (·.name) := by
  induction t with
  | nil => rfl
  | cons c t ih =>
    have h1 := h c (by simp)
    have h2 := ih (fun d hd => h d (by simp [hd]))
    simp only [flatNames, List.flatMap_cons, List.map_cons] at h2 ⊢
    rw [h2, h1]
    rfl

theorem withColumn_free {sc : Scope} {f : String} (h : ∀ d ∈ sc, d.name ≠ f) : withColumn sc f = flagged sc f := by
  unfold withColumn
  rw [if_neg]
  simp only [List.any_eq_true, decide_eq_true_eq, not_exists, not_and]
  exact h

theorem apply_ok {parse : String → List String} {pks : List String} {t : List TCol} {cols : List SyncCol}
    (hs : SchemaOk pks (descs cols)) (ht : TableOk pks t)
    (hk : ∀ n ∈ pks, Plain parse n ∧ Plain parse (canon .newPk n)) :
    applyNames parse t (normCols cols) = some (t.map (·.name)) := by
  have hnd := normCols_nodup hs.nodup
  have hcan : ∀ c ∈ normCols cols, c.field.name = canon c.role c.name := fun c hc => by
    obtain ⟨_, _, _, h, _⟩ := mem_normCols hc; exact h
  have hup : ∀ (n : String), (∀ r m, canon r m ≠ n) →
      (scan upperRel (normCols cols)).filter (fun d => decide (d.name = n)) = [] := fun n hn =>
    filter_scan fun c hc => by rw [hcan c hc]; exact hn _ _
  have htf : ∀ (n : String), (∀ c ∈ t, c.name ≠ n) →
      (t.map (fun c => (⟨[lowerRel], c.name⟩ : ColRef))).filter (fun d => decide (d.name = n)) = [] := by
    intro n hn
    rw [List.filter_eq_nil_iff]
    intro d hd
    obtain ⟨c, hc, rfl⟩ := List.mem_map.1 hd
    simpa using hn c hc
  unfold applyNames
  rw [withColumn_free (fun d hd => by
    obtain ⟨c, hc, rfl⟩ := List.mem_map.1 hd
    exact (ht.free c hc).1)]
  rw [if_pos, flatNames_flat ht.flat]
  rw [flatNames_flat ht.flat]
  simp only [Bool.and_eq_true, List.all_eq_true, decide_eq_true_eq]
  have hups : finds (flagged (t.map (fun c => (⟨[lowerRel], c.name⟩ : ColRef))) lowerRel ++
      (scan upperRel (normCols cols) ++ [⟨[upperRel], upsertCol⟩])) ⟨[], upsertCol⟩ = true := by
    apply finds_flag (c := ⟨[upperRel], upsertCol⟩)
    rw [List.filter_append, flagged_other (by decide) (htf _ fun c hc => (ht.free c hc).2),
      List.filter_append, hup _ fun r m => canon_ne.2.2]
    simp
  have hlow : finds (flagged (t.map (fun c => (⟨[lowerRel], c.name⟩ : ColRef))) lowerRel ++
      (scan upperRel (normCols cols) ++ [⟨[upperRel], upsertCol⟩])) ⟨[], lowerRel⟩ = true := by
    apply finds_flag (c := ⟨[], lowerRel⟩)
    rw [List.filter_append, flagged_filter (htf _ fun c hc => (ht.free c hc).1),
      List.filter_append, hup _ fun r m => canon_ne.1]
    simp [upsertCol, lowerRel]
  have hupx : ∀ c ∈ normCols cols, finds (flagged (t.map (fun c => (⟨[lowerRel], c.name⟩ : ColRef))) lowerRel ++
      (scan upperRel (normCols cols) ++ [⟨[upperRel], upsertCol⟩])) ⟨[upperRel], c.field.name⟩ = true := by
    intro c hc
    apply finds_exact
    simp only [List.mem_append]
    exact Or.inr (Or.inl (List.mem_map.2 ⟨c, hc, rfl⟩))
  refine ⟨⟨⟨fun c hc => ?_, hups⟩, fun n hn => ⟨?_, ?_⟩⟩, ht.nodup⟩
  · cases hr : c.role <;> try rfl
    obtain ⟨c0, h0, hname, hf, -, h⟩ := mem_normCols hc
    have hin : c.name ∈ pks := by
      rcases h with ⟨h, -⟩ | ⟨-, h | h⟩
      · rw [← hname]
        have := mem_descs h0
        rw [h] at this
        exact (pk_mem hs).1.1 this
      · rw [hr] at h; exact absurd h (by decide)
      · rw [hr] at h; exact absurd h (by decide)
    have p1 := (hk _ hin).1
    have p2 := (hk _ hin).2
    rw [hr] at hf
    rw [hf, p1, p2]
    have a1 : finds (flagged (t.map (fun c => (⟨[lowerRel], c.name⟩ : ColRef))) lowerRel) ⟨[], c.name⟩ = true := by
      apply finds_one
      · simp only [flagged, List.map_append, List.map_map, List.map_cons, List.map_nil]
        rw [List.nodup_append]
        refine ⟨ht.nodup, by simp, ?_⟩
        intro a ha b hb
        obtain ⟨k, hk', rfl⟩ := List.mem_map.1 ha
        rw [List.mem_singleton.1 hb]
        exact (ht.free k hk').1
      · simp only [flagged, List.map_append, List.map_map, List.mem_append]
        exact Or.inl (ht.keys _ hin)
    have a2 : finds (scan upperRel (normCols cols) ++ [⟨[upperRel], upsertCol⟩]) ⟨[], canon .newPk c.name⟩ = true := by
      apply finds_one
      · simp only [List.map_append, scan_names, List.map_cons, List.map_nil]
        rw [List.nodup_append]
        refine ⟨hnd, by simp, ?_⟩
        intro a ha b hb
        obtain ⟨k, hk', rfl⟩ := List.mem_map.1 ha
        rw [List.mem_singleton.1 hb, hcan k hk']
        exact canon_ne.2.2
      · simp only [List.map_append, scan_names, List.mem_append]
        exact Or.inl (List.mem_map.2 ⟨c, hc, hf⟩)
    simp only [keyFound, a1, a2, if_true]
    rfl
  · apply finds_exact
    obtain ⟨c, hc, rfl⟩ := List.mem_map.1 hn
    simp only [flagged, List.mem_append]
    exact Or.inl (Or.inl (List.mem_map.2 ⟨c, hc, rfl⟩))
  · unfold syncFound
    split
    · rename_i c hc
      have hm : c ∈ normCols cols := by
        cases hv : findCol (normCols cols) .value n with
        | some k => rw [hv] at hc; simp only [Option.some_or, Option.some.injEq] at hc
                    subst hc; exact (findCol_some hv).1
        | none => rw [hv] at hc; simp only [Option.none_or] at hc; exact (findCol_some hc).1
      rw [hups, hupx c hm]
      split
      · rename_i k hk'
        rw [hupx k (findCol_some hk').1]; rfl
      · rfl
    · exact hlow

/-- The full statement holds for messages with plain names. -/
theorem C137_plans_partial {parse : String → List String} {pks : List String} {t : List TCol} {first : Item}
    {rest : List Item} (hpk : pks ≠ []) (ht : TableOk pks t)
    (hI : ∀ it ∈ first :: rest, ItemOk parse pks it.cols)
    (hk : ∀ n ∈ pks, Plain parse n ∧ Plain parse (canon .newPk n))
    (hc : rest ≠ [] → ∀ it ∈ first :: rest, CanonPlain parse it.cols)
    (hv : ∃ it ∈ first :: rest, ∃ n ∈ pks, it.seen .oldPk n = true ∨ it.seen .newPk n = true) :
    planNames parse t (first :: rest) = some (t.map (·.name)) := by
  obtain ⟨L, h1, h2⟩ := squash_ok hpk rest ⟨first.cols, scan lowerRel first.cols⟩
    ⟨hI first (by simp), rfl⟩ (fun it hit => hI it (by simp [hit]))
    (fun hr => ⟨hc hr first (by simp), fun it hit => hc hr it (by simp [hit])⟩)
  have h3 := norm_ok hpk h2
  have h4 := apply_ok h2.item.schema ht hk
  have hb : boundsFound parse t first (first :: rest) = true := by
    have hall : ∀ it ∈ first :: rest, ∀ n ∈ pks,
        (findCol it.cols .oldPk n).isSome = true ∧ (findCol it.cols .newPk n).isSome = true := by
      intro it hit n hn
      obtain ⟨c, hc'⟩ := findCol_of_mem ((pk_mem (hI it hit).schema).1.2 hn)
      obtain ⟨d, hd'⟩ := findCol_of_mem ((pk_mem (hI it hit).schema).2.2 hn)
      simp [hc', hd']
    have hs := (hI first (by simp)).schema
    have e1 : bounds first (first :: rest) .oldPk =
        some (pks.filter (fun n => (first :: rest).any (fun it => it.seen .oldPk n))) := by
      simp only [bounds, hs.oldPk]
      rw [if_pos]
      simp only [List.all_eq_true]
      exact fun it hit n hn => (hall it hit n hn).1
    have e2 : bounds first (first :: rest) .newPk =
        some (pks.filter (fun n => (first :: rest).any (fun it => it.seen .newPk n))) := by
      simp only [bounds, hs.newPk]
      rw [if_pos]
      simp only [List.all_eq_true]
      exact fun it hit n hn => (hall it hit n hn).2
    simp only [boundsFound, e1, e2, Bool.and_eq_true, List.all_eq_true, Bool.not_eq_true',
      List.isEmpty_eq_false_iff]
    constructor
    · obtain ⟨it, hit, n, hn, h⟩ := hv
      have : n ∈ pks.filter (fun n => (first :: rest).any (fun it => it.seen .oldPk n)) ++
          pks.filter (fun n => (first :: rest).any (fun it => it.seen .newPk n)) := by
        simp only [List.mem_append, List.mem_filter, List.any_eq_true]
        rcases h with h | h
        · exact Or.inl ⟨hn, it, hit, h⟩
        · exact Or.inr ⟨hn, it, hit, h⟩
      exact List.ne_nil_of_mem this
    · intro n hn
      have hn' : n ∈ pks := by
        simp only [List.mem_append, List.mem_filter] at hn
        rcases hn with h | h
        · exact h.1
        · exact h.1
      rw [(hk n hn').1]
      apply finds_one
      · rw [List.map_map]; exact ht.nodup
      · rw [List.map_map]; exact ht.keys n hn'
  simp only [planNames, hb, if_true, h1, h3, h4]

/-! ### Violations -/

/-- A key column whose name is not in lower case: no flush ever succeeds (unless the table has another
column of that name in lower case), whatever is sent. -/
theorem C137_violated_key {parse : String → List String} (hp : FoldsWords parse) {t : List TCol} {first : Item}
    {rest : List Item} {role : Role} {n : String} (hr : role = .oldPk ∨ role = .newPk)
    (hn : n ∈ names (descs first.cols) role) (hv : ∃ it ∈ first :: rest, it.seen role n = true)
    (hw : isWord n = true) (hl : lower n ∉ t.map (·.name)) : planNames parse t (first :: rest) = none := by
  have hb : boundsFound parse t first (first :: rest) = false := by
    refine Bool.eq_false_iff.2 fun h => ?_
    unfold boundsFound at h
    split at h
    · rename_i o m ho hm
      simp only [Bool.and_eq_true, List.all_eq_true] at h
      have key : ∀ r l, bounds first (first :: rest) r = some l → role = r → n ∈ l := by
        intro r l hb he
        subst he
        simp only [bounds] at hb
        split at hb
        · simp only [Option.some.injEq] at hb
          rw [← hb]
          exact List.mem_filter.2 ⟨hn, List.any_eq_true.2 hv⟩
        · exact absurd hb (by simp)
      have hin : n ∈ o ++ m := by
        rcases hr with hr | hr
        · exact List.mem_append_left _ (key _ _ ho hr)
        · exact List.mem_append_right _ (key _ _ hm hr)
      have h2 := h.2 n hin
      rw [colOf_word hp hw] at h2
      have h3 := finds_mem h2
      rw [List.map_map] at h3
      exact hl h3
    · exact absurd h (by decide)
  simp [planNames, hb]

theorem merge_inv {parse : String → List String} {pks : List String} {L L' : Low} {it : Item}
    (hL : SchemaOk pks (descs L.cols)) (hU : SchemaOk pks (descs it.cols)) (h : mergeNames parse L it = some L') :
    L'.cols = mergedCols L.cols it.cols (Sync.mergedCols (descs L.cols) (descs it.cols)) ∧
      L'.scope = scan lowerRel L'.cols ∧ ∀ c ∈ L'.cols, c.field.nested = 0 := by
  have key : ∀ cols, merged cols = some L' → L'.cols = cols ∧ L'.scope = scan lowerRel L'.cols ∧
      ∀ c ∈ L'.cols, c.field.nested = 0 := by
    intro cols hm
    unfold merged at hm
    split at hm
    · rename_i hc
      simp only [Option.some.injEq] at hm
      subst hm
      exact ⟨rfl, rfl, countOk_iff.1 hc⟩
    · exact absurd hm (by simp)
  unfold mergeNames at h
  split at h
  · exact absurd h (by simp)
  · unfold unionNames at h
    split at h
    · rw [mergeUnion_eq hL hU] at h; exact key _ h
    · exact absurd h (by simp)
  · simp only [joinNames] at h
    split at h
    · rw [mergeJoin_eq hL hU] at h; exact key _ h
    · exact absurd h (by simp)

theorem squash_inv {parse : String → List String} {pks : List String} : ∀ (rest : List Item) (L L' : Low),
    SchemaOk pks (descs L.cols) → (∀ it ∈ rest, SchemaOk pks (descs it.cols)) →
    squashNames parse L rest = some L' →
    SchemaOk pks (descs L'.cols) ∧
    (∀ n, Desc.mk .value n ∈ descs L'.cols ↔
      Desc.mk .value n ∈ descs L.cols ∨ ∃ it ∈ rest, Desc.mk .value n ∈ descs it.cols) ∧
    (((∀ c ∈ L.cols, c.field.name = canon c.role c.name) ∧ L.scope = scan lowerRel L.cols ∨ rest ≠ []) →
      L'.scope = scan lowerRel L'.cols ∧ ∀ c ∈ L'.cols, c.field.name = canon c.role c.name)
  | [], L, L', hL, _, h => by
    simp only [squashNames, Option.some.injEq] at h
    subst h
    refine ⟨hL, fun n => by simp, ?_⟩
    rintro (⟨h1, h2⟩ | h)
    · exact ⟨h2, h1⟩
    · exact absurd rfl h
  | it :: rest, L, L', hL, hI, h => by
    simp only [squashNames] at h
    cases hm : mergeNames parse L it with
    | none => rw [hm] at h; exact absurd h (by simp)
    | some L1 =>
      rw [hm] at h
      have hU := hI it (by simp)
      obtain ⟨h1, h2, -⟩ := merge_inv hL hU hm
      have hd : descs L1.cols = Sync.mergedCols (descs L.cols) (descs it.cols) := by rw [h1, descs_merged]
      have hs1 : SchemaOk pks (descs L1.cols) := by rw [hd]; exact mergedCols_ok hL hU
      obtain ⟨h3, h4, h5⟩ := squash_inv rest L1 L' hs1 (fun i hi => hI i (by simp [hi])) h
      refine ⟨h3, fun n => ?_, fun _ => h5 (Or.inl ⟨?_, h2⟩)⟩
      · rw [h4 n, hd, mem_mergedCols hL hU]
        simp only [reduceCtorEq, false_and, or_false, List.mem_cons, exists_eq_or_imp]
        constructor
        · rintro ((h | h) | h)
          · exact Or.inl h
          · exact Or.inr (Or.inl h)
          · exact Or.inr (Or.inr h)
        · rintro (h | h | h)
          · exact Or.inl (Or.inl h)
          · exact Or.inl (Or.inr h)
          · exact Or.inr h
      · intro c hc
        rw [h1] at hc
        obtain ⟨d, _, rfl⟩ := List.mem_map.1 hc
        exact mergedField_name _ _ _

/-- A value column whose name is not in lower case: as soon as two items have to be merged the flush fails,
although each of them alone may succeed. -/
theorem C137_violated_value {parse : String → List String} (hp : FoldsWords parse) {pks : List String}
    {t : List TCol} {first : Item} {rest : List Item} {n : String}
    (hI : ∀ it ∈ first :: rest, SchemaOk pks (descs it.cols)) (hr : rest ≠ [])
    (hn : ∃ it ∈ first :: rest, Desc.mk .value n ∈ descs it.cols) (hw : isWord n = true)
    (hl : ∀ it ∈ first :: rest, Desc.mk .value (lower n) ∉ descs it.cols) :
    planNames parse t (first :: rest) = none := by
  simp only [planNames]
  split
  · split
    · rfl
    · rename_i L hL
      obtain ⟨h1, h2, h3⟩ := squash_inv rest ⟨first.cols, scan lowerRel first.cols⟩ L (hI first (by simp))
        (fun it hit => hI it (by simp [hit])) hL
      obtain ⟨h4, h5⟩ := h3 (Or.inr hr)
      have hm : Desc.mk .value n ∈ descs L.cols := by
        rw [h2]
        obtain ⟨it, hit, h⟩ := hn
        rcases List.mem_cons.1 hit with rfl | hit
        · exact Or.inl h
        · exact Or.inr ⟨it, hit, h⟩
      have hnm : Desc.mk .value (lower n) ∉ descs L.cols := by
        rw [h2]
        rintro (h | ⟨it, hit, h⟩)
        · exact hl first (by simp) h
        · exact hl it (by simp [hit]) h
      have : normNames parse L = none := by
        unfold normNames
        rw [if_neg]
        simp only [Bool.and_eq_true, List.all_eq_true]
        rintro ⟨⟨-, h⟩, -⟩
        obtain ⟨c, hc⟩ := findCol_of_mem hm
        obtain ⟨hcm, hcr, hcn⟩ := findCol_some hc
        have h6 := h c hcm
        unfold normFound at h6
        simp only [hcr] at h6
        rw [h5 c hcm, hcr, hcn, colOf_word hp (isWord_canon _ hw), lower_canon] at h6
        have h7 := finds_mem h6
        rw [h4, scan_names] at h7
        obtain ⟨k, hk, hke⟩ := List.mem_map.1 h7
        rw [h5 k hk] at hke
        obtain ⟨h8, h9⟩ := canon_inj hke
        apply hnm
        rw [← h9, ← h8]
        exact mem_descs hk
      rw [this]
  · rfl

/-- A field of the messages whose name is not in lower case (whatever the column is called): an item that
is flushed alone fails, unless another field has that name in lower case. -/
theorem C137_violated_field {parse : String → List String} (hp : FoldsWords parse) {t : List TCol}
    {it : Item} {c : SyncCol} (hc : c ∈ it.cols) (hr : c.role ≠ .newPk) (hw : isWord c.field.name = true)
    (hl : lower c.field.name ∉ it.cols.map (·.field.name)) : planNames parse t [it] = none := by
  have : normNames parse ⟨it.cols, scan lowerRel it.cols⟩ = none := by
    unfold normNames
    rw [if_neg]
    simp only [Bool.and_eq_true, List.all_eq_true]
    rintro ⟨⟨-, h⟩, -⟩
    have h1 := h c hc
    have h2 : finds (scan lowerRel it.cols) (colOf parse c.field.name) = true := by
      unfold normFound at h1
      split at h1
      · rename_i e; exact absurd e hr
      · simp only [Bool.and_eq_true] at h1; exact h1.1
      · exact h1
    rw [colOf_word hp hw] at h2
    have h3 := finds_mem h2
    rw [scan_names] at h3
    exact hl h3
  simp only [planNames, squashNames, this]
  split <;> rfl

theorem withColumn_mem {sc : Scope} {f : String} {d : ColRef} (hd : d.name ≠ f) (h : d ∈ sc) : d ∈ withColumn sc f := by
  unfold withColumn
  split
  · exact List.mem_map.2 ⟨d, h, if_neg hd⟩
  · exact List.mem_append_left _ h

theorem withColumn_gone {sc : Scope} {f r : String} : (⟨[r], f⟩ : ColRef) ∉ withColumn sc f := by
  unfold withColumn
  split
  · intro h
    obtain ⟨d, -, he⟩ := List.mem_map.1 h
    split at he
    · cases he
    · rename_i hne
      exact hne (by rw [he])
  · rename_i hno
    intro h
    simp only [List.any_eq_true, decide_eq_true_eq, not_exists, not_and] at hno
    rcases List.mem_append.1 h with h | h
    · exact hno _ h rfl
    · simp at h

theorem withColumn_old {sc : Scope} {f : String} {d : ColRef} (hd : d.rel ≠ []) (h : d ∈ withColumn sc f) : d ∈ sc := by
  unfold withColumn at h
  split at h
  · obtain ⟨e, he, h⟩ := List.mem_map.1 h
    split at h
    · subst h; exact absurd rfl hd
    · rw [← h]; exact he
  · rcases List.mem_append.1 h with h | h
    · exact h
    · rw [List.mem_singleton] at h; subst h; exact absurd rfl hd

/-- A table with a column called `__lower_rel` can never be flushed into: the flag of the base scan takes the place of
the column, and the projection refers to it by its relation. -/
theorem C137_violated_flag {parse : String → List String} {t : List TCol} {items : List Item}
    (ht : "__lower_rel" ∈ t.map (·.name)) : planNames parse t items = none := by
  have key : ∀ N, applyNames parse t N = none := by
    intro N
    unfold applyNames
    rw [if_neg]
    simp only [Bool.and_eq_true, List.all_eq_true]
    rintro ⟨⟨-, h⟩, -⟩
    obtain ⟨c, hc, he⟩ := List.mem_map.1 ht
    have h1 := (h lowerRel (List.mem_flatMap.2 ⟨c, hc, by rw [he]; exact List.mem_cons_self⟩)).1
    simp only [finds, List.cons_ne_nil, if_false, List.contains_eq_mem, decide_eq_true_eq, List.mem_append] at h1
    rcases h1 with h1 | h1 | h1
    · exact withColumn_gone h1
    · obtain ⟨d, -, hd⟩ := List.mem_map.1 h1
      simp [lowerRel, upperRel] at hd
    · simp [lowerRel, upperRel] at h1
  cases items with
  | nil => rfl
  | cons it rest =>
    simp only [planNames]
    split
    · split
      · rfl
      · split
        · rfl
        · exact key _
    · rfl

/-- A table with a column called `__upsert_col` can never be flushed into: the filter of `apply_syncs` finds two columns
of that name. -/
theorem C137_violated_reserved {parse : String → List String} {t : List TCol} {items : List Item}
    (ht : "__upsert_col" ∈ t.map (·.name)) : planNames parse t items = none := by
  have key : ∀ N, applyNames parse t N = none := by
    intro N
    unfold applyNames
    rw [if_neg]
    simp only [Bool.and_eq_true]
    rintro ⟨⟨⟨-, h⟩, -⟩, -⟩
    simp only [finds, if_true, List.filter_append, List.length_append, beq_iff_eq] at h
    obtain ⟨c, hc, he⟩ := List.mem_map.1 ht
    have h0 : (⟨[lowerRel], upsertCol⟩ : ColRef) ∈ withColumn (t.map (fun c => (⟨[lowerRel], c.name⟩ : ColRef))) lowerRel :=
      withColumn_mem (by decide) (List.mem_map.2 ⟨c, hc, by rw [he]; rfl⟩)
    have h1 : 0 < ((withColumn (t.map (fun c => (⟨[lowerRel], c.name⟩ : ColRef))) lowerRel).filter
        (fun d => decide (d.name = upsertCol))).length :=
      List.length_pos_of_mem (List.mem_filter.2 ⟨h0, by simp⟩)
    have h2 : ([(⟨[upperRel], upsertCol⟩ : ColRef)].filter (fun d => decide (d.name = upsertCol))).length = 1 := by simp
    omega
  cases items with
  | nil => rfl
  | cons it rest =>
    simp only [planNames]
    split
    · split
      · rfl
      · split
        · rfl
        · exact key _
    · rfl

theorem flatNames_dup {t : List TCol} {x : String} (h1 : x ∈ t.map (·.name)) (h2 : ∃ c ∈ t, x ∈ c.below) :
    ¬ (flatNames t).Nodup := by
  induction t with
  | nil => simp at h1
  | cons c t ih =>
    intro hn
    simp only [flatNames, List.flatMap_cons] at hn ih
    rw [List.nodup_append] at hn
    obtain ⟨ha, hb, hd⟩ := hn
    have hm : ∀ y, (y ∈ t.map (·.name) ∨ ∃ c ∈ t, y ∈ c.below) →
        y ∈ t.flatMap (fun c => c.name :: c.below) := by
      intro y hy
      rw [List.mem_flatMap]
      rcases hy with hy | ⟨d, hd, hy⟩
      · obtain ⟨d, hd, rfl⟩ := List.mem_map.1 hy
        exact ⟨d, hd, by simp⟩
      · exact ⟨d, hd, by simp [hy]⟩
    obtain ⟨d, hd1, hd2⟩ := h2
    rcases List.mem_cons.1 hd1 with rfl | hd1
    · simp only [List.map_cons, List.mem_cons] at h1
      rcases h1 with h1 | h1
      · rw [List.nodup_cons] at ha
        exact ha.1 (h1 ▸ hd2)
      · exact hd x (by simp [hd2]) x (hm x (Or.inl h1)) rfl
    · simp only [List.map_cons, List.mem_cons] at h1
      rcases h1 with h1 | h1
      · exact hd x (by simp [h1]) x (hm x (Or.inr ⟨d, hd1, hd2⟩)) rfl
      · exact ih h1 ⟨d, hd1, hd2⟩ hb

/-- No table with a nested column (struct, list or map) can be replicated to, whatever the changes are. -/
theorem C137_violated_nested_table (parse : String → List String) {t : List TCol} {c : TCol} (hc : c ∈ t)
    (hb : c.below ≠ []) (items : List Item) : planNames parse t items = none := by
  have key : ∀ N, applyNames parse t N = none := by
    intro N
    unfold applyNames
    rw [if_neg]
    simp only [Bool.and_eq_true, List.all_eq_true, decide_eq_true_eq]
    rintro ⟨⟨-, h⟩, hn⟩
    obtain ⟨x, hx⟩ := List.exists_mem_of_ne_nil _ hb
    have hm : x ∈ flatNames t := List.mem_flatMap.2 ⟨c, hc, by simp [hx]⟩
    have h1 := (h x hm).1
    simp only [finds, reduceCtorEq, if_false] at h1
    have h2 := List.contains_iff_mem.1 h1
    simp only [List.mem_append, scan, List.mem_map, List.mem_singleton, ColRef.mk.injEq, List.cons.injEq, and_true] at h2
    have h3 : x ∈ t.map (·.name) := by
      rcases h2 with h2 | ⟨d, -, h4, -⟩ | ⟨h4, -⟩
      · obtain ⟨d, hd, he⟩ := List.mem_map.1 (withColumn_old (by simp) h2)
        injection he with _ he
        exact List.mem_map.2 ⟨d, hd, he⟩
      · exact absurd h4 (by decide)
      · exact absurd h4 (by decide)
    exact flatNames_dup h3 ⟨c, hc, hx⟩ hn
  cases items with
  | nil => rfl
  | cons it rest =>
    simp only [planNames]
    split
    · split
      · rfl
      · split
        · rfl
        · exact key _
    · rfl

/-- Messages with a nested column that were accepted (with descriptors for the inner fields too) cannot be
flushed. -/
theorem C137_violated_nested_field (parse : String → List String) {pks : List String} {t : List TCol}
    {first : Item} {rest : List Item} (hI : ∀ it ∈ first :: rest, SchemaOk pks (descs it.cols)) {c : SyncCol}
    (hc : c ∈ first.cols) (hr : c.role ≠ .newPk) (hn : c.field.nested ≠ 0) :
    planNames parse t (first :: rest) = none := by
  have key : squashNames parse ⟨first.cols, scan lowerRel first.cols⟩ rest = none ∨
      ∃ L, squashNames parse ⟨first.cols, scan lowerRel first.cols⟩ rest = some L ∧ normNames parse L = none := by
    cases rest with
    | nil =>
      refine Or.inr ⟨_, rfl, ?_⟩
      unfold normNames
      rw [if_neg]
      simp only [Bool.and_eq_true]
      rintro ⟨-, h⟩
      obtain ⟨d, hd, -, he⟩ := normCols_mem hc hr
      exact hn (he ▸ countOk_iff.1 h d hd)
    | cons it rest =>
      left
      have : mergeNames parse ⟨first.cols, scan lowerRel first.cols⟩ it = none := by
        cases hm : mergeNames parse ⟨first.cols, scan lowerRel first.cols⟩ it with
        | none => rfl
        | some L1 =>
          exfalso
          have hL := hI first (by simp)
          have hU := hI it (by simp)
          obtain ⟨h1, -, h3⟩ := merge_inv (L := ⟨first.cols, scan lowerRel first.cols⟩) hL hU hm
          have hd : Desc.mk c.role c.name ∈ Sync.mergedCols (descs first.cols) (descs it.cols) :=
            (mem_mergedCols hL hU).2 (Or.inl (mem_descs hc))
          have hin := h3 ⟨c.role, c.name, mergedField first.cols it.cols ⟨c.role, c.name⟩⟩
            (h1 ▸ List.mem_map.2 ⟨_, hd, rfl⟩)
          obtain ⟨k, hk⟩ := findCol_of_mem (mem_descs hc)
          obtain ⟨k1, k2, k3⟩ := findCol_some hk
          simp only [mergedField, hk] at hin
          have hck : k = c := by
            have h4 := hL.nodup
            unfold descs List.Nodup at h4
            rw [List.pairwise_map] at h4
            refine Classical.byContradiction fun hne => ?_
            have h5 : ∀ (l : List SyncCol), l.Pairwise (fun a b => (⟨a.role, a.name⟩ : Desc) ≠ ⟨b.role, b.name⟩) →
                k ∈ l → c ∈ l → False := by
              intro l hl h6 h7
              induction l with
              | nil => simp at h6
              | cons a l ih =>
                rw [List.pairwise_cons] at hl
                rcases List.mem_cons.1 h6 with e6 | m6
                · rcases List.mem_cons.1 h7 with e7 | m7
                  · exact hne (e6.trans e7.symm)
                  · exact hl.1 c m7 (by rw [← e6, k2, k3])
                · rcases List.mem_cons.1 h7 with e7 | m7
                  · exact hl.1 k m6 (by rw [← e7, k2, k3])
                  · exact ih hl.2 m6 m7
            exact h5 _ h4 k1 hc
          rw [hck] at hin
          exact hn hin
      simp only [squashNames, this]
  simp only [planNames]
  split
  · rcases key with h | ⟨L, h, h'⟩
    · rw [h]
    · rw [h]; simp only [h']
  · rfl

/-- Changes that name a key column which the changes before them do not have are never flushed. -/
theorem C137_other_key (parse : String → List String) {t : List TCol} {first it : Item} {rest : List Item}
    {c : SyncCol} (hc : c ∈ it.cols) (hr : c.role = .oldPk) (hn : findCol first.cols .newPk c.name = none)
    (ha : it.appendOnly = some false) : planNames parse t (first :: it :: rest) = none := by
  have hj : mergeNames parse ⟨first.cols, scan lowerRel first.cols⟩ it = none := by
    simp only [mergeNames, ha, joinNames]
    rw [if_neg]
    intro h
    simp only [Bool.and_eq_true, List.all_eq_true] at h
    have := h.1.1.1.1 c hc
    simp [hr, joinKeyFound, hn] at this
  simp only [planNames, squashNames, hj]
  split <;> rfl

/-- Names that are no SQL identifiers at all, such as `unit price`, stand for themselves. -/
theorem C137_unreadable {parse : String → List String} {n : String} (h : parse n = []) : Plain parse n := by
  simp [Plain, colOf, h]

/-! ### Examples -/

/-- A reader of identifiers like that of the library on words. -/
def demoParse (s : String) : List String := if isWord s then [lower s] else []

theorem demoParse_folds : FoldsWords demoParse := fun s h => by simp [demoParse, h]

namespace NamesDemo

/-- A column with a field of the same type. -/
def col (role : Role) (name field : String) : SyncCol := ⟨role, name, ⟨field, .other 0, 0⟩⟩

/-- Inserts into a table with the key `key`, and the value column `v` sent as the field `f`. -/
def inserts (key v f : String) : Item :=
  ⟨[col .oldPk key "o", col .newPk key "n", col .value v f], fun r _ => r == .newPk⟩

/-- Updates of the same table, without the value column, but with another one. -/
def updates (key : String) : Item :=
  ⟨[col .oldPk key "o", col .newPk key "n", col .value "qty" "q"], fun _ _ => true⟩

def table (key v : String) : List TCol := [⟨key, []⟩, ⟨v, []⟩, ⟨"qty", []⟩]

/-- Two items with different columns are planned. -/
example : planNames demoParse (table "id" "name") [inserts "id" "name" "f", updates "id"] =
    some ["id", "name", "qty"] := by decide +kernel

/-- The hypotheses of the theorem hold for them. -/
example : ItemOk demoParse ["id"] (inserts "id" "name" "f").cols ∧ TableOk ["id"] (table "id" "name") ∧
    CanonPlain demoParse (inserts "id" "name" "f").cols := by
  refine ⟨⟨⟨by decide +kernel, by decide +kernel, by decide +kernel, ?_, ?_⟩, by decide +kernel, ?_, ?_, ?_⟩,
    ⟨?_, by decide +kernel, ?_, ?_⟩, ?_⟩
  · intro c hc; simp [inserts, descs, col] at hc
  · intro c hc; simp [inserts, descs, col] at hc; subst hc; decide +kernel
  · intro c hc
    simp only [inserts, List.mem_cons, List.not_mem_nil, or_false] at hc
    rcases hc with rfl | rfl | rfl <;> (unfold Plain; decide +kernel)
  · intro c hc
    simp only [inserts, List.mem_cons, List.not_mem_nil, or_false] at hc
    rcases hc with rfl | rfl | rfl <;> rfl
  · intro c hc
    simp only [inserts, List.mem_cons, List.not_mem_nil, or_false] at hc
    rcases hc with rfl | rfl | rfl <;> decide +kernel
  · intro c hc
    simp only [table, List.mem_cons, List.not_mem_nil, or_false] at hc
    rcases hc with rfl | rfl | rfl <;> rfl
  · intro c hc
    simp only [table, List.mem_cons, List.not_mem_nil, or_false] at hc
    rcases hc with rfl | rfl | rfl <;> decide +kernel
  · intro n hn
    simp only [List.mem_singleton] at hn
    subst hn
    decide +kernel
  · intro c hc r
    simp only [inserts, List.mem_cons, List.not_mem_nil, or_false] at hc
    rcases hc with rfl | rfl | rfl <;> cases r <;> (unfold Plain; decide +kernel)

/-- A column called `__upsert_col` stops replication, one called `__upsert` does not. -/
example : planNames demoParse (table "id" "__upsert_col") [inserts "id" "__upsert_col" "f"] = none ∧
    planNames demoParse (table "id" "__upsert") [inserts "id" "__upsert" "f"] = some ["id", "__upsert", "qty"] :=
  ⟨C137_violated_reserved (by decide +kernel), by decide +kernel⟩

/-- Nor does one called `__upper_rel`, but one called `__lower_rel` does. -/
example : planNames demoParse (table "id" "__lower_rel") [inserts "id" "__lower_rel" "f"] = none ∧
    planNames demoParse (table "id" "__upper_rel") [inserts "id" "__upper_rel" "f"] = some ["id", "__upper_rel", "qty"] :=
  ⟨C137_violated_flag (by decide +kernel), by decide +kernel⟩

/-- A key called `userId` is never replicated. -/
example : planNames demoParse (table "userId" "name") [inserts "userId" "name" "f"] = none :=
  C137_violated_key demoParse_folds (role := .newPk) (n := "userId") (Or.inr rfl) (by decide +kernel)
    ⟨_, List.mem_singleton.2 rfl, rfl⟩ (by decide +kernel) (by decide +kernel)

/-- A value column called `userName` is replicated from one item, but not from two. -/
example : planNames demoParse (table "id" "userName") [inserts "id" "userName" "f"] =
      some ["id", "userName", "qty"] ∧
    planNames demoParse (table "id" "userName") [inserts "id" "userName" "f", updates "id"] = none := by
  decide +kernel

/-- A key called `user id` is, however many items are merged. -/
example : planNames demoParse (table "user id" "unit price")
      [inserts "user id" "unit price" "f", updates "user id"] = some ["user id", "unit price", "qty"] := by
  decide +kernel

/-- Two fields of the same name cannot be told apart. -/
example : planNames demoParse (table "id" "name")
      [⟨[col .oldPk "id" "o", col .newPk "id" "n", col .value "name" "f", col .value "qty" "f"],
        fun r _ => r == .newPk⟩] = none := by
  decide +kernel

/-- A field called `Value` for a column called `name`. -/
example : planNames demoParse (table "id" "name") [inserts "id" "name" "Value"] = none :=
  C137_violated_field demoParse_folds (c := col .value "name" "Value") (by decide +kernel) (by decide +kernel)
    (by decide +kernel) (by decide +kernel)

/-- An update that names another key column. -/
example : planNames demoParse (table "id" "name") [inserts "id" "name" "f",
      ⟨[col .oldPk "id" "o", col .oldPk "qty" "p", col .newPk "id" "n", col .newPk "qty" "m"], fun _ _ => true⟩] = none :=
  C137_other_key demoParse (c := col .oldPk "qty" "p") (by decide +kernel) rfl (by decide +kernel) (by decide +kernel)

/-- A list column is accepted with a descriptor for its items, and then stuck. -/
example : (tryNew [⟨0, "id"⟩, ⟨1, "id"⟩, ⟨3, "tags"⟩, ⟨3, "item"⟩]
      [⟨"o", .other 0, 0⟩, ⟨"n", .other 0, 0⟩, ⟨"f", .other 1, 1⟩] true).isOk = true ∧
    planNames demoParse [⟨"id", []⟩, ⟨"tags", ["item"]⟩]
      [⟨mkCols [⟨0, "id"⟩, ⟨1, "id"⟩, ⟨3, "tags"⟩, ⟨3, "item"⟩]
        [⟨"o", .other 0, 0⟩, ⟨"n", .other 0, 0⟩, ⟨"f", .other 1, 1⟩], fun r _ => r == .newPk⟩] = none := by
  decide +kernel

end NamesDemo

end Seafowl.Names
