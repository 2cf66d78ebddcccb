import Verif.Sync.FlushKeys

/-!
# C104: sending again after a restart

After a restart a client learns the last durable number and sends everything after it again.  A table may then already
contain a part of these changes, because it was flushed before the restart while another table of the same transaction
was not (`C04`: nothing in the writer recognises what a table already contains).  This file says when the tables end up
right.
-/

namespace Seafowl.Sync

variable {pks full : List String} {S : Schema}

/-! ### specification -/

/-- The change sets every column. -/
def SetsAll (full : List String) (ch : Change) : Prop := ∀ c ∈ full, ch.set c ≠ none

/-- The change is about the row with key `k`. -/
def About (k : Key) (ch : Change) : Prop := ch.new = some k ∨ ch.old = some k

instance (k : Key) (ch : Change) : Decidable (About k ch) := by unfold About; infer_instance

/-- The changes of each group in order. -/
def groupChanges (pks : List String) (groups : List (List SItem)) : List (List Change) := groups.map (allChanges pks)

/-- The right content of the table before the first group of changes, after the first group, after the second, … -/
def boundaries (full : List String) : Table → List (List Change) → List Table
  | T, [] => [T]
  | T, g :: gs => T :: boundaries full (replay full T g) gs

/-- `outs` are the groups with the items of each squashed (what `flush_syncs` does first,
src/sync/writer.rs 396). -/
inductive SquashedGroups : List (List SItem) → List (List SItem) → Prop
  | nil : SquashedGroups [] []
  | cons {g o : List SItem} {gs os : List (List SItem)} : SquashedItems g o → SquashedGroups gs os →
      SquashedGroups (g :: gs) (o :: os)

/-- Flushes of the groups one after the other (src/sync/writer.rs 394-515, see `flushRows`). -/
def flushAll (full : List String) : List (List SItem) → List TRow → Option (List TRow)
  | [], base => some base
  | o :: os, base =>
    match flushRows full o base with
    | none => none
    | some base' => flushAll full os base'

/-- The items carry all columns and have no Changed columns. -/
structure FullItem (pks full : List String) (it : SItem) : Prop where
  ok : SchemaOk pks it.1
  flags : ∀ c, Desc.mk .changed c ∉ it.1
  cols : ∀ c, Desc.mk .value c ∈ it.1 ↔ c ∈ full ∧ c ∉ pks

/-! ### changes that set all columns do not depend on what was there -/

theorem write_all {b b' : TRow} {set : String → Option Cell} (h : ∀ c ∈ full, set c ≠ none) :
    write full b set = write full b' set := by
  funext c
  simp only [write]
  split
  · next hc =>
    cases hs : set c with
    | none => exact absurd hs (h c hc)
    | some v => rfl
  · rfl

theorem apply1_about {ch : Change} (h : SetsAll full ch) {k : Key} (ha : About k ch) (T T' : Table) :
    apply1 full T ch k = apply1 full T' ch k := by
  simp only [apply1]
  split
  · rw [write_all h]
  · split
    · rfl
    · rcases ha with ha | ha <;> contradiction

theorem apply1_other {ch : Change} {k : Key} (ha : ¬ About k ch) (T : Table) : apply1 full T ch k = T k := by
  simp only [About, not_or] at ha
  simp [apply1, ha.1, ha.2]

/-- A row mentioned by the changes ends up the same, whatever was there. -/
theorem replay_about {chs : List Change} (h : ∀ ch ∈ chs, SetsAll full ch) {k : Key} (ha : ∃ ch ∈ chs, About k ch)
    (T T' : Table) : replay full T chs k = replay full T' chs k := by
  induction chs generalizing T T' with
  | nil => simp at ha
  | cons ch chs ih =>
    simp only [replay, List.foldl_cons]
    by_cases hr : ∃ c ∈ chs, About k c
    · exact ih (fun c hc => h c (by simp [hc])) hr _ _
    · have hk : ∀ (T : Table), replay full T chs k = T k := by
        intro T
        clear ih ha h
        induction chs generalizing T with
        | nil => rfl
        | cons c cs ih =>
          simp only [replay, List.foldl_cons]
          have h1 := ih (fun ⟨x, hx, hx'⟩ => hr ⟨x, by simp [hx], hx'⟩) (apply1 full T c)
          simp only [replay] at h1
          rw [h1, apply1_other (fun hx => hr ⟨c, by simp, hx⟩)]
      have h1 := hk (apply1 full T ch)
      have h2 := hk (apply1 full T' ch)
      simp only [replay] at h1 h2
      rw [h1, h2]
      obtain ⟨c, hc, hc'⟩ := ha
      rcases List.mem_cons.1 hc with rfl | hc
      · exact apply1_about (h c (by simp)) hc' T T'
      · exact absurd ⟨c, hc, hc'⟩ hr

/-- A row not mentioned by the changes stays. -/
theorem replay_other {chs : List Change} {k : Key} (ha : ¬ ∃ ch ∈ chs, About k ch) (T : Table) :
    replay full T chs k = T k := by
  induction chs generalizing T with
  | nil => rfl
  | cons c cs ih =>
    simp only [replay, List.foldl_cons]
    have h1 := ih (fun ⟨x, hx, hx'⟩ => ha ⟨x, by simp [hx], hx'⟩) (apply1 full T c)
    simp only [replay] at h1
    rw [h1, apply1_other (fun hx => ha ⟨c, by simp, hx⟩)]

theorem netApply_about {N : List Change} (h : ∀ ch ∈ N, SetsAll full ch) {k : Key} (ha : ∃ ch ∈ N, About k ch)
    (T T' : Table) : netApply full T N k = netApply full T' N k := by
  simp only [netApply]
  split
  · next ch hf => rw [write_all (h ch (List.mem_of_find?_eq_some hf))]
  · next hf =>
    obtain ⟨ch, hch, h1 | h1⟩ := ha
    · have := List.find?_eq_none.1 hf ch hch
      simp [h1] at this
    · rw [if_pos (List.any_eq_true.2 ⟨ch, hch, by simp [h1]⟩), if_pos (List.any_eq_true.2 ⟨ch, hch, by simp [h1]⟩)]

theorem netApply_untouched {N : List Change} {k : Key} (ha : ¬ ∃ ch ∈ N, About k ch) (T : Table) :
    netApply full T N k = T k := by
  have h1 : N.find? (fun ch => ch.new = some k) = none := by
    rw [List.find?_eq_none]
    intro ch hch
    simp only [decide_eq_true_eq]
    exact fun h => ha ⟨ch, hch, Or.inl h⟩
  have h2 : N.any (fun ch => ch.old = some k) = false := by
    rw [List.any_eq_false]
    intro ch hch
    simp only [decide_eq_true_eq]
    exact fun h => ha ⟨ch, hch, Or.inr h⟩
  simp only [netApply, h1, h2]
  simp

/-- Whether changes make sense depends only on which keys there are. -/
theorem validSeq_congr {chs : List Change} {T T' : Table} (h : ∀ k, (T k).isSome = (T' k).isSome)
    (hv : ValidSeq full T chs) : ValidSeq full T' chs := by
  induction chs generalizing T T' with
  | nil => trivial
  | cons ch chs ih =>
    refine ⟨⟨?_, ?_⟩, ih ?_ hv.2⟩
    · intro k hk; rw [← h]; exact hv.1.1 k hk
    · intro k hk
      rcases hv.1.2 k hk with h1 | h1
      · left
        have := h k
        rw [h1] at this
        simpa using this.symm
      · exact Or.inr h1
    · intro k
      simp only [apply1]
      split
      · rfl
      · split
        · rfl
        · exact h k

/-- A row different from `r`. -/
def otherRow (r : TRow) : TRow := fun c => match r c with
  | none => some (.bool true)
  | some _ => none

theorem otherRow_ne (r : TRow) : otherRow r ≠ r := by
  intro h
  have := congrFun h "x"
  simp only [otherRow] at this
  split at this
  · next h1 => rw [h1] at this; cases this
  · next h1 => rw [h1] at this; cases this

/-! ### one flush -/

/-- What flushing a group does to any table: the net changes `N` applied all at once, which on the right table is the
replay of the received changes. -/
structure GroupEffect (pks full : List String) (chs : List Change) (o : List SItem) (T0 : Table) (N : List Change) : Prop where
  all : ∀ ch ∈ N, SetsAll full ch
  chAll : ∀ ch ∈ chs, SetsAll full ch
  valid : NetValid T0 N
  effect : ∀ T, ValidSeq full T (chs) → netApply full T N = replay full T (chs)
  flush : ∀ base, Keyed pks full base → ∃ out, flushRows full o base = some out ∧ Keyed pks full out ∧
    tableOf pks out = netApply full (tableOf pks base) N
  ok : ∀ it ∈ o, SchemaOk pks it.1
  ups : ∀ S rows ns, squashSyncs o = some (S, rows) → normalize S rows = some ns → UpsertsOk pks ns

theorem setsAll_of {it : SItem} (h : FullItem pks full it) : ∀ ch ∈ itemChanges pks it, SetsAll full ch := by
  intro ch hch c hc
  obtain ⟨r, _, rfl⟩ := List.mem_map.1 hch
  by_cases hcp : c ∈ pks
  · simp [changeOf, hcp]
  · have h1 := (h.cols c).2 ⟨hc, hcp⟩
    have h2 := h.flags c
    simp [changeOf, hcp, h1, h2]

theorem FullItem.squashed {items outs : List SItem} (h : SquashedItems items outs)
    (hf : ∀ it ∈ items, FullItem pks full it) : ∀ it ∈ outs, FullItem pks full it := by
  intro it hit
  have := h.schemas (fun S => FullItem pks full (S, [])) (fun it h' => ⟨(hf it h').ok, (hf it h').flags, (hf it h').cols⟩)
    it hit
  exact ⟨this.ok, this.flags, this.cols⟩

/-- The effect of a flush of items with all columns, from facts about the merged item. -/
theorem groupEffect_of (hpk : pks ≠ []) (hpf : ∀ n ∈ pks, n ∈ full) {g o : List SItem} (hne : g ≠ [])
    (hsq : SquashedItems g o) (hf : ∀ it ∈ g, FullItem pks full it) (hw : ∀ it ∈ o, WholeKeys pks it.2)
    (hfd : ∀ S rows, squashSyncs o = some (S, rows) → FirstDecides pks S rows)
    {T0 : Table} (hv : ValidSeq full T0 (allChanges pks g)) : ∃ N, GroupEffect pks full (allChanges pks g) o T0 N := by
  have hok1 : ∀ it ∈ g, SchemaOk pks it.1 ∧ FlagsAgree pks it.1 it.2 := fun it hit =>
    ⟨(hf it hit).ok, fun r _ _ _ c _ hc _ => absurd hc ((hf it hit).flags c)⟩
  have hfo := FullItem.squashed hsq hf
  have hov : Overwrites pks [] o := by
    refine overwrites_of (fun it => FullItem pks full it) ?_ (by simp) hfo
    intro it hit u hu _ b hb c hc
    exact setsAll_of hit u hu c ((hb.cols c).1 hc).1
  have hne' : o ≠ [] := by
    cases hsq with
    | nil => exact absurd rfl hne
    | cons _ _ => simp
  have hok' : ∀ it ∈ o, SchemaOk pks it.1 ∧ WholeKeys pks it.2 := fun it hit => ⟨(hfo it hit).ok, hw it hit⟩
  obtain ⟨h1, _⟩ := hsq.effect hok1 hv
  obtain ⟨S, rows, hs, hS, hwr, hnv, _⟩ := C14_merge_partial hpk T0 o hne' hok' h1 hov
  have hcomp : ∀ c ∈ full, c ∈ pks ∨ (Desc.mk .value c ∈ S ∧ Desc.mk .changed c ∉ S) := by
    cases o with
    | nil => exact absurd rfl hne'
    | cons a o =>
      refine mergeAll_complete' (full := full) o a (S, rows) (hfo a (by simp)).ok
        (fun it h' => (hfo it (by simp [h'])).ok) ?_ hs
      intro it hit c hc
      by_cases hcp : c ∈ pks
      · exact Or.inl hcp
      · exact Or.inr ⟨((hfo it hit).cols c).2 ⟨hc, hcp⟩, (hfo it hit).flags c⟩
  have hset : ∀ r ∈ rows, SetsAll full (changeOf pks S r) := by
    intro r _ c hc
    by_cases hcp : c ∈ pks
    · simp [changeOf, hcp]
    · rcases hcomp c hc with h2 | ⟨h2, h3⟩
      · exact absurd h2 hcp
      · simp [changeOf, hcp, h2, h3]
  refine ⟨rows.map (changeOf pks S), ?_, ?_, hnv, ?_, ?_, fun it hit => (hfo it hit).ok, ?_⟩
  · intro ch hch
    obtain ⟨r, hr, rfl⟩ := List.mem_map.1 hch
    exact hset r hr
  · intro ch hch
    obtain ⟨it, hit, hch⟩ := List.mem_flatMap.1 hch
    exact setsAll_of (hf it hit) ch hch
  · intro T hvT
    obtain ⟨h2, h3⟩ := hsq.effect hok1 hvT
    obtain ⟨S', rows', hs', _, _, _, he⟩ := C14_merge_partial hpk T o hne' hok' h2 hov
    rw [hs] at hs'
    simp only [Option.some.injEq, Prod.mk.injEq] at hs'
    obtain ⟨rfl, rfl⟩ := hs'
    rw [he, h3]
  · intro base hb
    have hdef : ∃ out, flushRows full o base = some out := by
      cases hh : pks.head? with
      | none => simp [List.head?_eq_none_iff] at hh; exact absurd hh hpk
      | some n =>
        simp only [flushRows, hs, normalize, hS.oldPk, hh]
        exact ⟨_, rfl⟩
    obtain ⟨out, hout⟩ := hdef
    refine ⟨out, hout, ?_⟩
    have h3 : flushRows full [(S, rows)] base = some out := by
      have h4 : squashSyncs [(S, rows)] = some (S, rows) := rfl
      simp only [flushRows, hs] at hout
      simp only [flushRows, h4]
      exact hout
    exact C15_apply_partial hS hpf base out hb rows hwr (hfd S rows hs) hnv.news
      (fun r hr k _ => Or.inr (Or.inl (hset r hr))) h3
  · intro S' rows' ns hs' hns
    rw [hs] at hs'
    simp only [Option.some.injEq, Prod.mk.injEq] at hs'
    obtain ⟨rfl, rfl⟩ := hs'
    exact normalize_upsertsOk hS hwr (hfd S rows hs) hnv.news hns

/-- A row that the group mentions but its net changes do not was not there before the group. -/
theorem GroupEffect.temp {chs : List Change} {o : List SItem} {T0 : Table} {N : List Change} (h : GroupEffect pks full chs o T0 N)
    (hv : ValidSeq full T0 (chs)) {k : Key} (hin : ∃ ch ∈ chs, About k ch)
    (hN : ¬ ∃ ch ∈ N, About k ch) : T0 k = none := by
  cases hT : T0 k with
  | none => rfl
  | some r =>
    exfalso
    let T1 : Table := fun k' => if k' = k then some (otherRow r) else T0 k'
    have hv1 : ValidSeq full T1 (chs) := by
      refine validSeq_congr (fun k' => ?_) hv
      simp only [T1]
      split
      · next hk => rw [hk, hT]; rfl
      · rfl
    have h1 := congrFun (h.effect T0 hv) k
    have h2 := congrFun (h.effect T1 hv1) k
    rw [netApply_untouched hN] at h1 h2
    rw [replay_about h.chAll hin T0 T1, ← h2, hT] at h1
    simp only [T1, if_true, Option.some.injEq] at h1
    exact otherRow_ne r h1.symm

/-- Net changes of a group mention only keys that the group mentions. -/
theorem GroupEffect.sub {chs : List Change} {o : List SItem} {T0 : Table} {N : List Change} (h : GroupEffect pks full chs o T0 N)
    (hv : ValidSeq full T0 (chs)) {k : Key} (hN : ∃ ch ∈ N, About k ch) :
    (T0 k).isSome ∨ (replay full T0 (chs) k).isSome := by
  obtain ⟨ch, hch, h1 | h1⟩ := hN
  · right
    rw [← h.effect T0 hv]
    simp only [netApply]
    split
    · rfl
    · next hf =>
      have := List.find?_eq_none.1 hf ch hch
      simp [h1] at this
  · exact Or.inl (h.valid.exist ch hch k h1)

/-- The net changes of a group are about exactly the keys that the group mentions and that are in the table before or
after it. -/
theorem GroupEffect.touched {chs : List Change} {o : List SItem} {T0 : Table} {N : List Change} (h : GroupEffect pks full chs o T0 N)
    (hv : ValidSeq full T0 (chs)) (k : Key) : (∃ ch ∈ N, About k ch) ↔
    (∃ ch ∈ chs, About k ch) ∧ ((T0 k).isSome ∨ (replay full T0 (chs) k).isSome) := by
  constructor
  · intro hN
    refine ⟨Classical.byContradiction (fun hin => ?_), h.sub hv hN⟩
    have hs := h.sub hv hN
    rw [replay_other hin, or_self] at hs
    obtain ⟨r, hT⟩ := Option.isSome_iff_exists.1 hs
    let T1 : Table := fun k' => if k' = k then some (otherRow r) else T0 k'
    have hv1 : ValidSeq full T1 (chs) := by
      refine validSeq_congr (fun k' => ?_) hv
      simp only [T1]
      split
      · next hk => rw [hk, hT]; rfl
      · rfl
    have h1 := congrFun (h.effect T0 hv) k
    have h2 := congrFun (h.effect T1 hv1) k
    rw [replay_other hin] at h1 h2
    rw [netApply_about h.all hN T0 T1, h2, hT] at h1
    simp only [T1, if_true, Option.some.injEq] at h1
    exact otherRow_ne r h1
  · rintro ⟨hin, hs⟩
    refine Classical.byContradiction (fun hN => ?_)
    have h1 := h.temp hv hin hN
    have h2 := congrFun (h.effect T0 hv) k
    rw [netApply_untouched hN] at h2
    rw [← h2, h1] at hs
    simp at hs

/-! ### all flushes -/

/-- Some group mentions the key, with the row in the right table before or after this group. -/
def Seen (full : List String) (k : Key) : Table → List (List Change) → Prop
  | _, [] => False
  | T, g :: gs => ((∃ ch ∈ g, About k ch) ∧
      ((T k).isSome ∨ (replay full T (g) k).isSome)) ∨
      Seen full k (replay full T (g)) gs

/-- Every flush has the effect of net changes. -/
inductive GroupsEffect (pks full : List String) : Table → List (List Change) → List (List SItem) → Prop
  | nil {T : Table} : GroupsEffect pks full T [] []
  | cons {T : Table} {g : List Change} {o : List SItem} {gs : List (List Change)} {os : List (List SItem)} {N : List Change} :
      GroupEffect pks full g o T N → GroupsEffect pks full (replay full T (g)) gs os →
      GroupsEffect pks full T (g :: gs) (o :: os)

theorem GroupsEffect.flush {I : Table} {gs : List (List Change)} {os : List (List SItem)} (h : GroupsEffect pks full I gs os)
    (hv : ValidSeq full I (gs.flatten)) (base : List TRow) (hb : Keyed pks full base) :
    ∃ out, flushAll full os base = some out ∧ Keyed pks full out ∧ ∀ k,
      (Seen full k I gs → tableOf pks out k = replay full I (gs.flatten) k) ∧
      (¬ Seen full k I gs → tableOf pks out k = tableOf pks base k ∧
        replay full I (gs.flatten) k = I k) := by
  induction h generalizing base with
  | nil => exact ⟨base, rfl, hb, fun k => ⟨fun h => absurd h (by simp [Seen]), fun _ => ⟨rfl, rfl⟩⟩⟩
  | @cons T g o gs os N hN hrest ih =>
    rw [List.flatten_cons] at hv
    have hv' := validSeq_append.1 hv
    obtain ⟨b1, h1, h2, h3⟩ := hN.flush base hb
    obtain ⟨out, h4, h5, h6⟩ := ih hv'.2 b1 h2
    refine ⟨out, by simp only [flushAll, h1, h4], h5, fun k => ?_⟩
    rw [List.flatten_cons, replay_append]
    have ht := hN.touched hv'.1 k
    have heff := congrFun (hN.effect T hv'.1) k
    by_cases hs : Seen full k (replay full T (g)) gs
    · exact ⟨fun _ => (h6 k).1 hs, fun h => absurd (Or.inr hs) h⟩
    · obtain ⟨h7, h8⟩ := (h6 k).2 hs
      constructor
      · rintro (h9 | h9)
        · rw [h7, h8, h3, netApply_about hN.all (ht.2 h9) _ T, heff]
        · exact absurd h9 hs
      · intro h9
        have h10 : ¬ ∃ ch ∈ N, About k ch := fun h => h9 (Or.inl (ht.1 h))
        rw [h7, h8, h3, netApply_untouched h10, ← heff, netApply_untouched h10]
        exact ⟨rfl, rfl⟩

theorem not_seen_mentioned {gs : List (List Change)} {I : Table} {k : Key}
    (hs : ¬ Seen full k I gs) (hm : ∃ ch ∈ gs.flatten, About k ch) :
    ∀ B ∈ boundaries full I gs, B k = none := by
  induction gs generalizing I with
  | nil => simp at hm
  | cons g gs ih =>
    simp only [Seen, not_or] at hs
    rw [List.flatten_cons] at hm
    intro B hB
    by_cases hg : ∃ ch ∈ g, About k ch
    · have h1 : ¬ ((I k).isSome ∨ (replay full I (g) k).isSome) := fun h => hs.1 ⟨hg, h⟩
      simp only [not_or, Bool.not_eq_true, Option.isSome_eq_false_iff, Option.isNone_iff_eq_none] at h1
      rcases List.mem_cons.1 hB with rfl | hB
      · exact h1.1
      · have hcst : ∀ (gs : List (List Change)) (J : Table), J k = none → ¬ Seen full k J gs →
            ∀ B ∈ boundaries full J gs, B k = none := by
          clear ih hB hs hm hg h1
          intro gs
          induction gs with
          | nil => intro J hJ _ B hB; simp only [boundaries, List.mem_singleton] at hB; rw [hB]; exact hJ
          | cons g gs ih =>
            intro J hJ hs B hB
            simp only [Seen, not_or] at hs
            rcases List.mem_cons.1 hB with rfl | hB
            · exact hJ
            · refine ih _ ?_ hs.2 B hB
              by_cases hg : ∃ ch ∈ g, About k ch
              · have h1 : ¬ ((J k).isSome ∨ (replay full J (g) k).isSome) := fun h => hs.1 ⟨hg, h⟩
                simp only [not_or, Bool.not_eq_true, Option.isSome_eq_false_iff, Option.isNone_iff_eq_none] at h1
                exact h1.2
              · rw [replay_other hg]; exact hJ
        exact hcst gs _ h1.2 hs.2 B hB
    · have hm' : ∃ ch ∈ gs.flatten, About k ch := by
        obtain ⟨ch, hch, ha⟩ := hm
        rcases List.mem_append.1 hch with h1 | h1
        · exact absurd ⟨ch, h1, ha⟩ hg
        · exact ⟨ch, h1, ha⟩
      have h2 := ih hs.2 hm'
      rcases List.mem_cons.1 hB with rfl | hB
      · rw [← replay_other (full := full) hg B]
        refine h2 _ ?_
        cases gs with
        | nil => simp [boundaries]
        | cons _ _ => simp [boundaries]
      · exact h2 B hB

theorem seen_boundary {gs : List (List Change)} {I : Table} {k : Key} (hs : Seen full k I gs) :
    ∃ B ∈ boundaries full I gs, (B k).isSome := by
  have hhead : ∀ (J : Table) (gs : List (List Change)), J ∈ boundaries full J gs := by
    intro J gs; cases gs <;> simp [boundaries]
  induction gs generalizing I with
  | nil => exact absurd hs (by simp [Seen])
  | cons g gs ih =>
    rcases hs with ⟨_, h1 | h1⟩ | h1
    · exact ⟨I, hhead _ _, h1⟩
    · exact ⟨_, List.mem_cons_of_mem _ (hhead _ _), h1⟩
    · obtain ⟨B, hB, h2⟩ := ih h1
      exact ⟨B, List.mem_cons_of_mem _ hB, h2⟩

theorem boundaries_take (gs : List (List Change)) (I : Table) (j : Nat) :
    replay full I (gs.take j).flatten ∈ boundaries full I gs := by
  induction gs generalizing I j with
  | nil => simp [boundaries, replay]
  | cons g gs ih =>
    cases j with
    | zero => simp [boundaries, replay]
    | succ j =>
      rw [List.take_succ_cons, List.flatten_cons, replay_append]
      exact List.mem_cons_of_mem _ (ih _ j)

theorem boundaries_last (gs : List (List Change)) (I : Table) :
    replay full I gs.flatten ∈ boundaries full I gs := by
  have := boundaries_take (full := full) gs I gs.length
  rwa [List.take_length] at this

/-- The result of sending again, for a table that already contains a part of the changes. -/
theorem GroupsEffect.resend {I : Table} {gs : List (List Change)} {os : List (List SItem)} (h : GroupsEffect pks full I gs os)
    (hv : ValidSeq full I (gs.flatten)) (base : List TRow) (hb : Keyed pks full base)
    (p : List Change) (hp : p <+: gs.flatten) (hbase : tableOf pks base = replay full I p) :
    ∃ out, flushAll full os base = some out ∧ Keyed pks full out ∧
      (tableOf pks out = replay full I (gs.flatten) ↔
        ∀ k, (tableOf pks base k).isSome → ∃ B ∈ boundaries full I gs, (B k).isSome) := by
  obtain ⟨out, h1, h2, h3⟩ := h.flush hv base hb
  have hhead : I ∈ boundaries full I gs := by cases gs <;> simp [boundaries]
  refine ⟨out, h1, h2, ?_, ?_⟩
  · intro he k hk
    by_cases hs : Seen full k I gs
    · exact seen_boundary hs
    · obtain ⟨h4, h5⟩ := (h3 k).2 hs
      rw [he, h5] at h4
      exact ⟨I, hhead, by rw [h4]; exact hk⟩
  · intro hB
    funext k
    by_cases hs : Seen full k I gs
    · exact (h3 k).1 hs
    · obtain ⟨h4, h5⟩ := (h3 k).2 hs
      rw [h4, h5]
      by_cases hm : ∃ ch ∈ gs.flatten, About k ch
      · have h6 := not_seen_mentioned hs hm
        rw [h6 I hhead]
        cases hbk : tableOf pks base k with
        | none => rfl
        | some r =>
          obtain ⟨B, hB1, hB2⟩ := hB k (by rw [hbk]; rfl)
          rw [h6 B hB1] at hB2; cases hB2
      · rw [hbase]
        exact replay_other (fun ⟨ch, hch, ha⟩ => hm ⟨ch, hp.subset hch, ha⟩) I

/-! ### C104 -/

theorem groupsEffect_single {n : String} (hn : n ∈ full) {I : Table} {gs os : List (List SItem)}
    (hsq : SquashedGroups gs os) (hne : ∀ g ∈ gs, g ≠ []) (hf : ∀ g ∈ gs, ∀ it ∈ g, FullItem [n] full it)
    (hv : ValidSeq full I (groupChanges [n] gs).flatten) : GroupsEffect [n] full I (groupChanges [n] gs) os := by
  induction hsq generalizing I with
  | nil => exact .nil
  | @cons g o gs os h1 h2 ih =>
    rw [groupChanges, List.map_cons, List.flatten_cons] at hv
    have hv' := validSeq_append.1 hv
    obtain ⟨N, hN⟩ := groupEffect_of (by simp) (by simp [hn]) (hne g (by simp)) h1 (hf g (by simp))
      (fun it _ => wholeKeys_single n it.2) (fun S rows _ => firstDecides_single n S rows) hv'.1
    exact .cons hN (ih (fun g' h' => hne g' (by simp [h'])) (fun g' h' => hf g' (by simp [h'])) hv'.2)

/-- **C104** for tables with one key column and changes that carry all columns.  `I` is the table at the number from
which the client sends again, `base` the rows in the table at that time, which already contain the first changes `p`
of those that are sent again.  The flushes of what is sent again succeed, and afterwards the table is right *exactly if*
every row it had when it all began is in the right table at one of the flushes. -/
theorem C104_resend_partial (n : String) (hn : n ∈ full) (I : Table) (gs os : List (List SItem))
    (hsq : SquashedGroups gs os) (hne : ∀ g ∈ gs, g ≠ []) (hf : ∀ g ∈ gs, ∀ it ∈ g, FullItem [n] full it)
    (hv : ValidSeq full I (groupChanges [n] gs).flatten) (base : List TRow) (hb : Keyed [n] full base)
    (p : List Change) (hp : p <+: (groupChanges [n] gs).flatten) (hbase : tableOf [n] base = replay full I p) :
    ∃ out, flushAll full os base = some out ∧ Keyed [n] full out ∧
      (tableOf [n] out = replay full I (groupChanges [n] gs).flatten ↔
        ∀ k, (tableOf [n] base k).isSome → ∃ B ∈ boundaries full I (groupChanges [n] gs), (B k).isSome) :=
  (groupsEffect_single hn hsq hne hf hv).resend hv base hb p hp hbase

theorem groupEffect_stable (hpk : pks ≠ []) (hpf : ∀ n ∈ pks, n ∈ full) {I : Table} {g o : List SItem}
    (hsq : SquashedItems g o) (hne : g ≠ []) (hf : ∀ it ∈ g, FullItem pks full it)
    (hw : ∀ it ∈ g, WholeKeys pks it.2)
    (hst : ∀ ch ∈ allChanges pks g, ch.old = none ∨ ch.new = none ∨ ch.old = ch.new)
    (hv : ValidSeq full I (allChanges pks g)) : ∃ N, GroupEffect pks full (allChanges pks g) o I N := by
  have hg : Gentle pks full I g := by
    refine ⟨fun it hit => ⟨(hf it hit).ok, fun r _ _ _ c _ hc _ =>
      absurd hc ((hf it hit).flags c), hw it hit⟩,
      hst, Or.inr ⟨full.filter (fun c => c ∉ pks), fun it hit c => ⟨?_, ?_⟩⟩,
      Or.inl (fun it hit c hc => ?_), hv⟩
    · rw [(hf it hit).cols c]; simp
    · exact (hf it hit).flags c
    · by_cases hcp : c ∈ pks
      · exact Or.inl hcp
      · exact Or.inr ⟨((hf it hit).cols c).2 ⟨hc, hcp⟩, (hf it hit).flags c⟩
  obtain ⟨hwo, _, S, rows, hs, _, hfd, _⟩ := hg.merged hpk hne hsq
  exact groupEffect_of hpk hpf hne hsq hf hwo
    (fun S' rows' hs' => by
      rw [hs] at hs'
      simp only [Option.some.injEq, Prod.mk.injEq] at hs'
      obtain ⟨rfl, rfl⟩ := hs'
      exact hfd) hv

theorem groupsEffect_stable (hpk : pks ≠ []) (hpf : ∀ n ∈ pks, n ∈ full) {I : Table} {gs os : List (List SItem)}
    (hsq : SquashedGroups gs os) (hne : ∀ g ∈ gs, g ≠ []) (hf : ∀ g ∈ gs, ∀ it ∈ g, FullItem pks full it)
    (hw : ∀ g ∈ gs, ∀ it ∈ g, WholeKeys pks it.2)
    (hst : ∀ ch ∈ (groupChanges pks gs).flatten, ch.old = none ∨ ch.new = none ∨ ch.old = ch.new)
    (hv : ValidSeq full I (groupChanges pks gs).flatten) : GroupsEffect pks full I (groupChanges pks gs) os := by
  induction hsq generalizing I with
  | nil => exact .nil
  | @cons g o gs os h1 h2 ih =>
    rw [groupChanges, List.map_cons, List.flatten_cons] at hv hst
    have hv' := validSeq_append.1 hv
    obtain ⟨N, hN⟩ := groupEffect_stable hpk hpf h1 (hne g (by simp)) (hf g (by simp)) (hw g (by simp))
      (fun ch hch => hst ch (List.mem_append_left _ hch)) hv'.1
    exact .cons hN (ih (fun g' h' => hne g' (by simp [h'])) (fun g' h' => hf g' (by simp [h']))
      (fun g' h' => hw g' (by simp [h'])) (fun ch hch => hst ch (List.mem_append_right _ hch)) hv'.2)

/-- **C104** for any number of key columns, when no change moves a row to another key. -/
theorem C104_resend_keys_partial (hpk : pks ≠ []) (hpf : ∀ n ∈ pks, n ∈ full) (I : Table) (gs os : List (List SItem))
    (hsq : SquashedGroups gs os) (hne : ∀ g ∈ gs, g ≠ []) (hf : ∀ g ∈ gs, ∀ it ∈ g, FullItem pks full it)
    (hw : ∀ g ∈ gs, ∀ it ∈ g, WholeKeys pks it.2)
    (hst : ∀ ch ∈ (groupChanges pks gs).flatten, ch.old = none ∨ ch.new = none ∨ ch.old = ch.new)
    (hv : ValidSeq full I (groupChanges pks gs).flatten) (base : List TRow) (hb : Keyed pks full base)
    (p : List Change) (hp : p <+: (groupChanges pks gs).flatten) (hbase : tableOf pks base = replay full I p) :
    ∃ out, flushAll full os base = some out ∧ Keyed pks full out ∧
      (tableOf pks out = replay full I (groupChanges pks gs).flatten ↔
        ∀ k, (tableOf pks base k).isSome → ∃ B ∈ boundaries full I (groupChanges pks gs), (B k).isSome) :=
  (groupsEffect_stable hpk hpf hsq hne hf hw hst hv).resend hv base hb p hp hbase

/-- The table is right if nothing is deleted or moved among what is sent again. -/
theorem C104_no_deletes (n : String) (hn : n ∈ full) (I : Table) (gs os : List (List SItem))
    (hsq : SquashedGroups gs os) (hne : ∀ g ∈ gs, g ≠ []) (hf : ∀ g ∈ gs, ∀ it ∈ g, FullItem [n] full it)
    (hv : ValidSeq full I (groupChanges [n] gs).flatten) (base : List TRow) (hb : Keyed [n] full base)
    (p : List Change) (hp : p <+: (groupChanges [n] gs).flatten) (hbase : tableOf [n] base = replay full I p)
    (hnd : ∀ ch ∈ (groupChanges [n] gs).flatten, ch.old = none ∨ ch.old = ch.new) :
    ∃ out, flushAll full os base = some out ∧ Keyed [n] full out ∧
      tableOf [n] out = replay full I (groupChanges [n] gs).flatten := by
  obtain ⟨out, h1, h2, h3⟩ := C104_resend_partial n hn I gs os hsq hne hf hv base hb p hp hbase
  refine ⟨out, h1, h2, h3.2 (fun k hk => ?_)⟩
  rw [hbase] at hk
  have hmono : ∀ (chs : List Change) (T : Table), (∀ ch ∈ chs, ch.old = none ∨ ch.old = ch.new) → (T k).isSome →
      (replay full T chs k).isSome := by
    intro chs
    induction chs with
    | nil => intro T _ h; exact h
    | cons ch chs ih =>
      intro T hn h
      refine ih _ (fun c hc => hn c (by simp [hc])) ?_
      simp only [apply1]
      split
      · rfl
      · next h4 =>
        split
        · next h5 =>
          rcases hn ch (by simp) with h6 | h6
          · rw [h6] at h5; cases h5
          · exact absurd (h6 ▸ h5) h4
        · exact h
  obtain ⟨q, hq⟩ := hp
  refine ⟨replay full I (groupChanges [n] gs).flatten, ?_, ?_⟩
  · exact boundaries_last _ _
  · rw [← hq, replay_append]
    exact hmono q _ (fun ch hch => hnd ch (by rw [← hq]; simp [hch])) hk

/-- The table is right if it was flushed at a point at which it is flushed again. -/
theorem C104_same_point (n : String) (hn : n ∈ full) (I : Table) (gs os : List (List SItem))
    (hsq : SquashedGroups gs os) (hne : ∀ g ∈ gs, g ≠ []) (hf : ∀ g ∈ gs, ∀ it ∈ g, FullItem [n] full it)
    (hv : ValidSeq full I (groupChanges [n] gs).flatten) (base : List TRow) (hb : Keyed [n] full base)
    (j : Nat) (hbase : tableOf [n] base = replay full I (groupChanges [n] (gs.take j)).flatten) :
    ∃ out, flushAll full os base = some out ∧ Keyed [n] full out ∧
      tableOf [n] out = replay full I (groupChanges [n] gs).flatten := by
  have ht : groupChanges [n] (gs.take j) = (groupChanges [n] gs).take j := by
    simp [groupChanges, List.map_take]
  rw [ht] at hbase
  have hp : ((groupChanges [n] gs).take j).flatten <+: (groupChanges [n] gs).flatten := by
    refine ⟨((groupChanges [n] gs).drop j).flatten, ?_⟩
    rw [← List.flatten_append, List.take_append_drop]
  obtain ⟨out, h1, h2, h3⟩ := C104_resend_partial n hn I gs os hsq hne hf hv base hb _ hp hbase
  refine ⟨out, h1, h2, h3.2 (fun k hk => ⟨_, ?_, hk⟩)⟩
  rw [hbase]
  exact boundaries_take _ _ j

/-! ### concrete cases -/

namespace RsDemo
open SqDemo

/-- Row 3 is inserted, updated and deleted; row 1 is updated. -/
def ins : List Row := [r3 none (i 3) (i 30), r3 (i 1) (i 1) (i 11)]
def del : List Row := [r3 (i 3) none none]

/-- The table at the number from which the client sends again. -/
def base0 : List TRow := [trow [("id", i 1), ("v", i 10)]]

/-- The table after a flush of the first two changes only. -/
def base1 : List TRow := [trow [("id", i 1), ("v", i 11)], trow [("id", i 3), ("v", i 30)]]

def show' (rows : Option (List TRow)) : Option (List (List Cell)) := rows.map (·.map (fun r => [r "id", r "v"]))

/-- What the client sends again, flushed in two groups: everything is right. -/
example : ∃ os, SquashedGroups [[(S3, ins)], [(S3, del)]] os ∧
    show' (flushAll ["id", "v"] os base1) = some [[i 1, i 11]] := by
  refine ⟨_, .cons (.cons rfl .nil) (.cons (.cons rfl .nil) .nil), ?_⟩
  decide

theorem fullItem : FullItem ["id"] ["id", "v"] (S3, ins ++ del) := by
  refine ⟨S3_ok, fun c hc => by simp [S3] at hc, fun c => ?_⟩
  simp only [S3, List.mem_cons, Desc.mk.injEq, List.not_mem_nil, or_false, reduceCtorEq, false_and, true_and, false_or]
  constructor
  · rintro rfl; exact ⟨by simp, by decide⟩
  · rintro ⟨h1 | h1, h2⟩
    · exact absurd h1 h2
    · exact h1

theorem valid : ValidSeq ["id", "v"] (tableOf ["id"] base0) (groupChanges ["id"] [[(S3, ins ++ del)]]).flatten := by
  simp only [groupChanges, allChanges, itemChanges, ins, del, List.flatMap_cons, List.flatMap_nil, List.map_cons,
    List.map_nil, List.flatten_cons, List.flatten_nil, List.cons_append, List.nil_append, List.append_nil, ValidSeq]
  refine ⟨valid1_of ?_ ?_, valid1_of ?_ ?_, valid1_of ?_ ?_, trivial⟩ <;> decide

theorem keyed1 : Keyed ["id"] ["id", "v"] base1 := by
  refine ⟨by decide, ?_, ?_⟩
  · intro x hx n hn
    simp only [base1, List.mem_cons, List.not_mem_nil, or_false] at hx
    simp only [List.mem_cons, List.not_mem_nil, or_false] at hn
    subst hn
    rcases hx with rfl | rfl <;> decide
  · intro x hx c hc
    simp only [List.mem_cons, List.not_mem_nil, or_false, not_or] at hc
    simp only [base1, List.mem_cons, List.not_mem_nil, or_false] at hx
    have h1 : ∀ x : String, ¬ c = x → (c == x) = false := fun x h => by simpa using h
    rcases hx with rfl | rfl <;> simp [trow, List.lookup, h1 _ hc.1, h1 _ hc.2]

/-- The flush before the restart. -/
theorem before : ∃ os, SquashedGroups [[(S3, ins)]] os ∧
    show' (flushAll ["id", "v"] os base0) = show' (some base1) := by
  refine ⟨_, .cons (.cons rfl .nil) .nil, ?_⟩
  decide

end RsDemo

open SqDemo RsDemo in
/-- **C104 is violated**: the table was flushed after the insertion of row 3 (its transaction was not durable, because
another table was not flushed yet); after the restart the client sends the insertion and the deletion, both are in one
flush, cancel out and leave the row in the table for ever. -/
theorem C104_violated : ∃ (full : List String) (base0 base1 out : List TRow) (gs0 os0 gs os : List (List SItem)),
    (∀ g ∈ gs, ∀ it ∈ g, FullItem ["id"] full it) ∧
    SquashedGroups gs0 os0 ∧ (groupChanges ["id"] gs0).flatten <+: (groupChanges ["id"] gs).flatten ∧
    ValidSeq full (tableOf ["id"] base0) (groupChanges ["id"] gs).flatten ∧
    flushAll full os0 base0 = some base1 ∧
    SquashedGroups gs os ∧ flushAll full os base1 = some out ∧
    tableOf ["id"] out ≠ replay full (tableOf ["id"] base0) (groupChanges ["id"] gs).flatten := by
  refine ⟨["id", "v"], base0, _, _, [[(S3, ins)]], _, [[(S3, ins ++ del)]], _, ?_,
    .cons (.cons rfl .nil) .nil, ?_, valid, rfl, .cons (.cons rfl .nil) .nil, rfl, ?_⟩
  · intro g hg it hit
    simp only [List.mem_singleton] at hg
    subst hg
    simp only [List.mem_singleton] at hit
    subst hit
    exact fullItem
  · exact ⟨itemChanges ["id"] (S3, del), by simp [groupChanges, allChanges, itemChanges]⟩
  · intro h
    have h1 := congrArg (fun T : Table => (T [i 3]).map (fun r => r "v")) h
    revert h1
    decide

open SqDemo RsDemo in
/-- The same history meets the hypotheses of `C104_resend_partial` (the flushed table up to the choice of rows). -/
example : ValidSeq ["id", "v"] (tableOf ["id"] base0) (groupChanges ["id"] [[(S3, ins ++ del)]]).flatten ∧
    Keyed ["id"] ["id", "v"] base1 ∧ FullItem ["id"] ["id", "v"] (S3, ins ++ del) := ⟨valid, keyed1, fullItem⟩

open SqDemo RsDemo in
/-- Sent again in two flushes, row 3 is seen and deleted. -/
example : (boundaries ["id", "v"] (tableOf ["id"] base0) (groupChanges ["id"] [[(S3, ins)], [(S3, del)]])).map
    (fun B => (B [i 3]).isSome) = [false, true, false] := by decide

end Seafowl.Sync
