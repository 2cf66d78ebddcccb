import Verif.Sync.EndToEnd

/-!
# C105, C106: what a table contains

The content of a synced table after any history of the writer, in terms of the row changes that were accepted.
-/

namespace Seafowl.Sync

variable {σ β : Type}

/-! ### committed items are squashed -/

/-- The item holds the squashed form of data that derives from its messages. -/
def FromSquash (env : Env σ β) (acc : List (Msg σ β)) (it : Item σ β) : Prop :=
  ∃ s d b, Derived env acc it.msgs s d ∧ env.squash s d = some (it.schema, b) ∧ it.data = [b]

theorem FromSquash.mono {env : Env σ β} {acc : List (Msg σ β)} (m : Msg σ β) {it : Item σ β}
    (h : FromSquash env acc it) : FromSquash env (acc ++ [m]) it := by
  obtain ⟨s, d, b, h1, h2⟩ := h
  exact ⟨s, d, b, h1.mono m, h2⟩

/-- Items that count as squashed are, and only such items are committed. -/
structure Sqd (env : Env σ β) (log0 : Log σ β) (w : Writer σ β) (log : Log σ β) (acc : List (Msg σ β)) : Prop where
  buf : ∀ u c, alGet u w.syncs = some c → ∀ it ∈ c.syncs, it.isSquashed = true → FromSquash env acc it
  com : ∀ u, ∀ cm ∈ newCommits log0 log u, ∀ it ∈ cm.items, FromSquash env acc it

theorem Sqd.log {env : Env σ β} {log0 log log' : Log σ β} {w : Writer σ β}
    {acc : List (Msg σ β)} {extra : Url → List (Commit σ β)} (h : Sqd env log0 w log acc)
    (hpre : ∀ u, log0 u <+: log u) (he : Extends log log' extra)
    (hx : ∀ u, ∀ cm ∈ extra u, ∀ it ∈ cm.items, FromSquash env acc it) : Sqd env log0 w log' acc := by
  refine ⟨h.buf, ?_⟩
  intro u cm hcm
  rw [newCommits_extends (hpre u) he] at hcm
  rcases List.mem_append.1 hcm with h1 | h1
  · exact h.com u cm h1
  · exact hx u cm h1

theorem pushItem_sqd {env : Env σ β} {acc : List (Msg σ β)} {l : List (Item σ β)} {t : TxId} {s : σ} {bs : List β}
    {mid : Nat} (hl : ∀ it ∈ l, it.isSquashed = true → FromSquash env acc it) :
    ∀ it ∈ pushItem env l t s bs mid, it.isSquashed = true → FromSquash env acc it := by
  intro it hit
  simp only [pushItem] at hit
  split at hit
  · split at hit
    · rcases List.mem_append.1 hit with h | h
      · exact hl it (List.dropLast_subset _ h)
      · simp only [List.mem_singleton] at h
        subst h
        simp
    · rcases List.mem_append.1 hit with h | h
      · exact hl it h
      · simp only [List.mem_singleton] at h
        subst h; simp [newItem]
  · simp only [List.mem_singleton] at hit
    subst hit; simp [newItem]

theorem squashLoop_sqd {env : Env σ β} {acc : List (Msg σ β)} (l : List (Item σ β)) :
    ∀ (a b c : Nat), (∀ it ∈ l, Derived env acc it.msgs it.schema it.data) →
    (∀ it ∈ l, it.isSquashed = true → FromSquash env acc it) →
    ∀ it ∈ (squashLoop env l a b c).1, it.isSquashed = true → FromSquash env acc it := by
  induction l with
  | nil => intro a b c _ _ it hit; simp [squashLoop] at hit
  | cons x rest ih =>
    intro a b c hd hl it hit
    simp only [squashLoop] at hit
    split at hit
    · rcases List.mem_cons.1 hit with h | h
      · subst h; exact hl _ (by simp)
      · exact ih _ _ _ (fun i hi => hd i (by simp [hi])) (fun i hi => hl i (by simp [hi])) it h
    · split at hit
      · exact hl it hit
      · next s' b' hs =>
        rcases List.mem_cons.1 hit with h | h
        · subst h
          exact fun _ => ⟨x.schema, x.data, b', hd x (by simp), hs, rfl⟩
        · exact ih _ _ _ (fun i hi => hd i (by simp [hi])) (fun i hi => hl i (by simp [hi])) it h

theorem Sqd.remove {env : Env σ β} {log0 log : Log σ β} {w w' : Writer σ β} {acc : List (Msg σ β)} {u : Url}
    (h : Sqd env log0 w log acc) (hk : (w.syncs.map (·.1)).Nodup) (hw : w'.syncs = (removeSync w u).syncs) :
    Sqd env log0 w' log acc := by
  refine ⟨?_, h.com⟩
  intro u' c hc
  rw [hw] at hc
  simp only [removeSync] at hc
  split at hc
  · exact h.buf u' c hc
  · rw [alGet_alErase _ _ _ hk] at hc
    split at hc
    · cases hc
    · exact h.buf u' c hc

theorem sqd_closed (env : Env σ β) (log0 : Log σ β) :
    Closed env (fun _ => True) (fun w log acc => Full env log0 w log acc ∧ Sqd env log0 w log acc) where
  okQ := trivial
  enq := by
    intro w log acc now m w' ⟨hf, h⟩ hp hice he
    refine ⟨(full_closed env log0).enq _ _ _ now m w' hf hp hice he, ?_, fun u cm hcm it hit => (h.com u cm hcm it hit).mono m⟩
    obtain ⟨w1, t, ha, _, _, _, _, hsy, _⟩ := enqueue_ok he
    obtain ⟨⟨hs1, _, _, _⟩, _⟩ := assignTx_ok ha
    intro u c hc
    rw [hsy] at hc
    split at hc
    · rw [alGet_buffer, hs1] at hc
      split at hc
      · injection hc with hc
        subst hc
        split
        · next c0 hc0 => exact pushItem_sqd (fun it hit hsq => (h.buf _ c0 hc0 it hit hsq).mono m)
        · intro it hit
          simp only [List.mem_singleton] at hit
          subst hit
          simp [newItem]
      · exact fun it hit hsq => (h.buf u c hc it hit hsq).mono m
    · rw [hs1] at hc
      exact fun it hit hsq => (h.buf u c hc it hit hsq).mono m
  sq := by
    intro w log acc url ⟨hf, h⟩
    refine ⟨(full_closed env log0).sq _ _ _ url hf, ?_, h.com⟩
    have hb := h.buf
    have hd := hf.content.buf
    simp only [squashUrl]
    split
    · exact hb
    · next c hc =>
      intro u c' hc'
      simp only [alGet_alModify] at hc'
      split at hc'
      · next hu =>
        subst hu
        rw [hc] at hc'
        simp only [Option.map_some, Option.some.injEq] at hc'
        subst hc'
        exact squashLoop_sqd _ _ _ _ (hd _ c hc) (hb _ c hc)
      · exact hb u c' hc'
  create := by
    intro w log acc u ⟨hf, h⟩
    refine ⟨(full_closed env log0).create _ _ _ u hf, h.log hf.inv.pre (ensureTable_extends log u) ?_⟩
    intro u' cm hcm
    split at hcm
    · simp at hcm; subst hcm; simp
    · simp at hcm
  lost := by
    intro w log acc u entry info hq ⟨hf, h⟩ hl hg hne hall hci
    refine ⟨(full_closed env log0).lost _ _ _ u entry info hq hf hl hg hne hall hci,
      h.log hf.inv.pre (appendCommit_extends log u _) ?_⟩
    intro u' cm hcm it hit
    split at hcm
    · simp at hcm; subst hcm
      exact h.buf u entry hg it hit (hall it hit)
    · simp at hcm
  fin := by
    intro w log acc u entry info ⟨hf, h⟩ hl hg hne hall hci
    refine ⟨(full_closed env log0).fin _ _ _ u entry info hf hl hg hne hall hci, ?_⟩
    refine Sqd.remove (u := u) (w := w) ?_ hf.inv.keys (finishFlush_syncs w u entry.syncs).1
    refine h.log hf.inv.pre (appendCommit_extends log u _) ?_
    intro u' cm hcm it hit
    split at hcm
    · simp at hcm; subst hcm
      exact h.buf u entry hg it hit (hall it hit)
    · simp at hcm
  empty := by
    intro w log acc u entry ⟨hf, h⟩ hg hemp
    exact ⟨(full_closed env log0).empty _ _ _ u entry hf hg hemp, h.remove hf.inv.keys rfl⟩
  ext := by
    intro w log acc u ⟨hf, h⟩
    refine ⟨(full_closed env log0).ext _ _ _ u hf, h.log hf.inv.pre (appendCommit_extends log u _) ?_⟩
    intro u' cm hcm it hit
    split at hcm
    · simp at hcm; subst hcm; simp at hit
    · simp at hcm

theorem sqd_run (env : Env σ β) (log0 : Log σ β) (ops : List (Op σ β)) :
    Sqd env log0 (run env (World.start log0) ops).w (run env (World.start log0) ops).log
      (run env (World.start log0) ops).acc := by
  refine ((sqd_closed env log0).run ops (World.start log0) ⟨full_start env log0, ?_, ?_⟩ (fun _ _ _ _ => trivial)).2
  · simp [World.start, Writer.new, alGet]
  · simp [World.start, newCommits]

/-! ### specification -/

variable {pks full : List String}

abbrev DMsg := Msg Schema (List Row)

/-- The row changes of a message, in order. -/
def msgChanges (pks : List String) (m : DMsg) : List Change := m.batches.flatten.map (changeOf pks m.schema)

/-- The row changes for table `u` in a sequence of messages, in order. -/
def streamChanges (pks : List String) (msgs : List DMsg) (u : Url) : List Change :=
  (msgs.filter (fun m => m.url = u)).flatMap (msgChanges pks)

/-- A message whose changes carry all columns of the table, name whole keys and do not move rows to other keys. -/
structure PlainMsg (pks full : List String) (m : DMsg) : Prop where
  schema : FullItem pks full (m.schema, [])
  whole : WholeKeys pks m.batches.flatten
  stay : ∀ r ∈ m.batches.flatten, Stable (changeOf pks m.schema r)

/-! ### from messages to items -/

/-- The changes of the messages at the given positions. -/
def changesAt (pks : List String) (acc : List DMsg) (ms : List Nat) : List Change :=
  ms.flatMap (fun j => match acc[j]? with
    | some m => msgChanges pks m
    | none => [])

theorem changesAt_append (acc : List DMsg) (a b : List Nat) :
    changesAt pks acc (a ++ b) = changesAt pks acc a ++ changesAt pks acc b := by simp [changesAt]

theorem changesAt_one {acc : List DMsg} {i : Nat} {m : DMsg} (h : acc[i]? = some m) :
    changesAt pks acc [i] = msgChanges pks m := by simp [changesAt, h]

variable {bytes : List Row → Nat} {maxLag maxBytes maxSyncs : Nat}

/-- Full schemas of a table that agree as far as both go are equal. -/
theorem compat_eq {a b : Schema} (ha : FullItem pks full (a, [])) (hb : FullItem pks full (b, []))
    (h : (a.zip b).all (fun p => decide (p.1 = p.2)) = true) : a = b := by
  have hmem : ∀ {x : Schema}, FullItem pks full (x, []) → ∀ d : Desc, d ∈ x ↔
      (d.role = .oldPk ∧ d.name ∈ pks) ∨ (d.role = .newPk ∧ d.name ∈ pks) ∨
      (d.role = .value ∧ d.name ∈ full ∧ d.name ∉ pks) := by
    intro x hx d
    have hn : ∀ r n, Desc.mk r n ∈ x ↔ n ∈ names x r := by
      intro r n
      simp only [names, List.mem_map, List.mem_filter, decide_eq_true_eq]
      constructor
      · intro h; exact ⟨_, ⟨h, rfl⟩, rfl⟩
      · rintro ⟨d, ⟨hd, rfl⟩, rfl⟩; exact hd
    obtain ⟨r, n⟩ := d
    cases r with
    | oldPk => rw [hn]; simp [hx.ok.oldPk]
    | newPk => rw [hn]; simp [hx.ok.newPk]
    | changed => simp [hx.flags n]
    | value => have := hx.cols n; simp only at this; simp [this]
  have hp : a.Perm b := (List.perm_ext_iff_of_nodup ha.ok.nodup hb.ok.nodup).2 (fun d => by rw [hmem ha, hmem hb])
  have hlen := hp.length_eq
  apply List.ext_getElem hlen
  intro i h1 h2
  have h3 := List.all_eq_true.1 h (a[i], b[i]) (by
    rw [List.mem_iff_getElem]
    exact ⟨i, by simp only [List.length_zip]; omega, by simp⟩)
  simpa using h3

theorem flagsAgree_of_full {S : Schema} (h : FullItem pks full (S, [])) (rows : List Row) : FlagsAgree pks S rows :=
  fun _ _ _ _ c _ hc _ => absurd hc (h.flags c)

/-- Data that derives from plain messages, in any number of rounds of squashing, has their effect. -/
theorem derived_effect {acc : List DMsg} {ms : List Nat} {s : Schema} {d : List (List Row)}
    (h : Derived (dataEnv bytes maxLag maxBytes maxSyncs) acc ms s d)
    (hpl : ∀ j ∈ ms, ∀ m, acc[j]? = some m → PlainMsg pks full m) :
    FullItem pks full (s, []) ∧ ∀ T, ValidSeq full T (changesAt pks acc ms) →
      WholeKeys pks d.flatten ∧ (∀ r ∈ d.flatten, Stable (changeOf pks s r)) ∧
      ValidSeq full T (d.flatten.map (changeOf pks s)) ∧
      replay full T (d.flatten.map (changeOf pks s)) = replay full T (changesAt pks acc ms) := by
  induction h with
  | @one i m hi =>
    have hm := hpl i (by simp) m hi
    refine ⟨hm.schema, fun T hv => ?_⟩
    rw [changesAt_one hi] at hv ⊢
    exact ⟨hm.whole, hm.stay, hv, rfl⟩
  | @more ms s d i m _ hi hc ih =>
    have hm := hpl i (by simp) m hi
    obtain ⟨h1, h2⟩ := ih (fun j hj => hpl j (by simp [hj]))
    have hs : s = m.schema := compat_eq h1 hm.schema hc
    subst hs
    refine ⟨h1, fun T hv => ?_⟩
    rw [changesAt_append, changesAt_one hi] at hv ⊢
    have hv' := validSeq_append.1 hv
    obtain ⟨g1, g2, g3, g4⟩ := h2 T hv'.1
    rw [List.flatten_append, List.map_append, replay_append, replay_append, g4]
    refine ⟨?_, ?_, validSeq_append.2 ⟨g3, by rw [g4]; exact hv'.2⟩, rfl⟩
    · intro r hr
      rcases List.mem_append.1 hr with h | h
      · exact g1 r h
      · exact hm.whole r h
    · intro r hr
      rcases List.mem_append.1 hr with h | h
      · exact g2 r h
      · exact hm.stay r h
  | @squash ms s s' d b _ hsq ih =>
    obtain ⟨h1, h2⟩ := ih hpl
    simp only [dataEnv, Option.map_eq_some_iff, Prod.mk.injEq] at hsq
    obtain ⟨out, ho, rfl, rfl⟩ := hsq
    refine ⟨h1, fun T hv => ?_⟩
    obtain ⟨g1, g2, g3, g4⟩ := h2 T hv
    have hfl := flagsAgree_of_full h1 d.flatten
    obtain ⟨k1, k2, k3, k4⟩ := squash_stable h1.ok g3 hfl g2 ho
    obtain ⟨o1, _, _⟩ := squash_origin h1.ok g3 hfl g2 g1 ho
    simp only [List.flatten_cons, List.flatten_nil, List.append_nil]
    exact ⟨o1, k4, k1, by rw [k2, g4]⟩

/-- The positions of the messages in the items of a commit. -/
def itemMsgs (its : List (Item Schema (List Row))) : List Nat := its.flatMap (·.msgs)

/-- The items of a commit are the squashed form of items with the effect of their messages. -/
theorem items_effect {acc : List DMsg} : ∀ {its : List (Item Schema (List Row))} {T : Table},
    (∀ it ∈ its, FromSquash (dataEnv bytes maxLag maxBytes maxSyncs) acc it) →
    (∀ j ∈ itemMsgs its, ∀ m, acc[j]? = some m → PlainMsg pks full m) →
    ValidSeq full T (changesAt pks acc (itemMsgs its)) →
    ∃ g : List SItem, SquashedItems g (plannerItems its) ∧ g.length = its.length ∧
      (∀ it ∈ g, FullItem pks full it) ∧ (∀ it ∈ g, WholeKeys pks it.2) ∧
      (∀ ch ∈ allChanges pks g, Stable ch) ∧
      ∀ T', ValidSeq full T' (changesAt pks acc (itemMsgs its)) →
        ValidSeq full T' (allChanges pks g) ∧
        replay full T' (allChanges pks g) = replay full T' (changesAt pks acc (itemMsgs its)) := by
  intro its
  induction its with
  | nil => intro T _ _ _; exact ⟨[], .nil, rfl, by simp, by simp, by simp [allChanges], fun T' h => ⟨trivial, rfl⟩⟩
  | cons it its ih =>
    intro T hsq hpl hv
    have hms : itemMsgs (it :: its) = it.msgs ++ itemMsgs its := by simp [itemMsgs]
    rw [hms] at hpl
    rw [hms, changesAt_append] at hv
    have hv' := validSeq_append.1 hv
    obtain ⟨s, d, b, hd, hsb, hdata⟩ := hsq it (by simp)
    simp only [dataEnv, Option.map_eq_some_iff, Prod.mk.injEq] at hsb
    obtain ⟨out, ho, hs, rfl⟩ := hsb
    obtain ⟨h1, h2⟩ := derived_effect (pks := pks) (full := full) hd (fun j hj => hpl j (by simp [hj]))
    obtain ⟨g, hg1, hg2, hg3, hg4, hg5, hg6⟩ := ih (T := replay full T (changesAt pks acc it.msgs))
      (fun it' h' => hsq it' (by simp [h'])) (fun j hj => hpl j (by simp [hj])) hv'.2
    obtain ⟨a1, a2, _, _⟩ := h2 T hv'.1
    have hall : allChanges pks ((s, d.flatten) :: g) = d.flatten.map (changeOf pks s) ++ allChanges pks g := by
      simp [allChanges, itemChanges]
    refine ⟨(s, d.flatten) :: g, ?_, by simp [hg2], ?_, ?_, ?_, ?_⟩
    · have : plannerItems (it :: its) = (s, out) :: plannerItems its := by
        simp [plannerItems, hdata, hs]
      rw [this]
      exact .cons ho hg1
    · intro x hx
      rcases List.mem_cons.1 hx with rfl | hx
      · exact ⟨h1.ok, h1.flags, h1.cols⟩
      · exact hg3 x hx
    · intro x hx
      rcases List.mem_cons.1 hx with rfl | hx
      · exact a1
      · exact hg4 x hx
    · intro ch hch
      rw [hall] at hch
      rcases List.mem_append.1 hch with h | h
      · obtain ⟨r, hr, rfl⟩ := List.mem_map.1 h
        exact a2 r hr
      · exact hg5 ch h
    · intro T' hvT
      rw [hms, changesAt_append] at hvT ⊢
      have hvT' := validSeq_append.1 hvT
      obtain ⟨_, _, b3, b4⟩ := h2 T' hvT'.1
      obtain ⟨c1, c2⟩ := hg6 _ hvT'.2
      rw [hall, replay_append, replay_append, b4]
      exact ⟨validSeq_append.2 ⟨b3, by rw [b4]; exact c1⟩, c2⟩

theorem setsAll_changesAt {acc : List DMsg} {ms : List Nat}
    (hpl : ∀ j ∈ ms, ∀ m, acc[j]? = some m → PlainMsg pks full m) :
    ∀ ch ∈ changesAt pks acc ms, SetsAll full ch := by
  intro ch hch
  simp only [changesAt, List.mem_flatMap] at hch
  obtain ⟨j, hj, hch⟩ := hch
  split at hch
  · next m hm =>
    have := hpl j hj m hm
    exact setsAll_of (it := (m.schema, m.batches.flatten)) ⟨this.schema.ok, this.schema.flags, this.schema.cols⟩ ch hch
  · simp at hch

/-- The commits with row changes. -/
def dataCommits (cs : List (Commit Schema (List Row))) : List (Commit Schema (List Row)) :=
  cs.filter (fun c => !c.items.isEmpty)

theorem contents_eq (cs : List (Commit Schema (List Row))) (base : List TRow) :
    contents full cs base = flushAll full ((dataCommits cs).map (fun c => plannerItems c.items)) base := by
  induction cs generalizing base with
  | nil => rfl
  | cons c cs ih =>
    simp only [contents, dataCommits, List.filter_cons]
    cases hc : c.items.isEmpty with
    | true => simp only [if_true, Bool.not_true, Bool.false_eq_true, if_false]; exact ih base
    | false =>
      simp only [Bool.false_eq_true, if_false, Bool.not_false, if_true, List.map_cons, flushAll]
      cases flushRows full (plannerItems c.items) base with
      | none => rfl
      | some b => exact ih b

/-- The changes in each commit with row changes. -/
def commitChanges (pks : List String) (acc : List DMsg) (cs : List (Commit Schema (List Row))) : List (List Change) :=
  (dataCommits cs).map (fun c => changesAt pks acc (itemMsgs c.items))

theorem commitChanges_flatten (acc : List DMsg) (cs : List (Commit Schema (List Row))) :
    (commitChanges pks acc cs).flatten = changesAt pks acc (commitMsgs cs) := by
  induction cs with
  | nil => rfl
  | cons c cs ih =>
    have h1 : commitMsgs (c :: cs) = itemMsgs c.items ++ commitMsgs cs := by simp [commitMsgs, itemMsgs]
    rw [h1, changesAt_append, ← ih]
    simp only [commitChanges, dataCommits, List.filter_cons]
    cases hc : c.items.isEmpty with
    | true =>
      simp only [Bool.not_true, Bool.false_eq_true, if_false]
      rw [List.isEmpty_iff] at hc
      simp [hc, itemMsgs, changesAt]
    | false => simp

/-- The commits of a table have the effect of their messages. -/
theorem commits_effect (hpk : pks ≠ []) (hpf : ∀ n ∈ pks, n ∈ full) {acc : List DMsg} :
    ∀ {cs : List (Commit Schema (List Row))} {I : Table},
    (∀ c ∈ cs, ∀ it ∈ c.items, FromSquash (dataEnv bytes maxLag maxBytes maxSyncs) acc it) →
    (∀ j ∈ commitMsgs cs, ∀ m, acc[j]? = some m → PlainMsg pks full m) →
    ValidSeq full I (changesAt pks acc (commitMsgs cs)) →
    GroupsEffect pks full I (commitChanges pks acc cs) ((dataCommits cs).map (fun c => plannerItems c.items)) := by
  intro cs
  induction cs with
  | nil => intro I _ _ _; exact .nil
  | cons c cs ih =>
    intro I hsq hpl hv
    have h1 : commitMsgs (c :: cs) = itemMsgs c.items ++ commitMsgs cs := by simp [commitMsgs, itemMsgs]
    rw [h1] at hpl
    rw [h1, changesAt_append] at hv
    have hv' := validSeq_append.1 hv
    have hrest := ih (I := replay full I (changesAt pks acc (itemMsgs c.items)))
      (fun c' h' => hsq c' (by simp [h'])) (fun j hj => hpl j (by simp [hj])) hv'.2
    simp only [commitChanges, dataCommits, List.filter_cons] at hrest ⊢
    cases hc : c.items.isEmpty with
    | true =>
      simp only [Bool.not_true, Bool.false_eq_true, if_false]
      rw [List.isEmpty_iff] at hc
      have : changesAt pks acc (itemMsgs c.items) = [] := by simp [hc, itemMsgs, changesAt]
      rw [this] at hrest
      exact hrest
    | false =>
      simp only [Bool.not_false, if_true, List.map_cons]
      obtain ⟨g, hg1, hg2, hg3, hg4, hg5, hg6⟩ := items_effect (pks := pks) (full := full) (T := I)
        (hsq c (by simp)) (fun j hj => hpl j (by simp [hj])) hv'.1
      have hne : g ≠ [] := by
        intro h
        rw [h] at hg2
        have : c.items = [] := List.length_eq_zero_iff.1 hg2.symm
        rw [this] at hc; cases hc
      obtain ⟨N, hN⟩ := groupEffect_stable hpk hpf hg1 hne hg3 hg4 hg5 (hg6 I hv'.1).1
      refine .cons (N := N) ⟨hN.all, setsAll_changesAt (fun j hj => hpl j (by simp [hj])), hN.valid, ?_, hN.flush, hN.ok, hN.ups⟩ hrest
      intro T hT
      obtain ⟨a1, a2⟩ := hg6 T hT
      rw [hN.effect T a1, a2]

/-! ### from the writer's messages to the stream -/

/-- The number of accepted messages before the first one that is still buffered for table `u`. -/
def doneUpto (W : World σ β) (u : Url) : Nat :=
  match pending W.w u with
  | [] => W.acc.length
  | j :: _ => j

theorem changesAt_mono {acc : List DMsg} (m : DMsg) {ms : List Nat} (h : ∀ j ∈ ms, j < acc.length) :
    changesAt pks (acc ++ [m]) ms = changesAt pks acc ms := by
  induction ms with
  | nil => rfl
  | cons j ms ih =>
    have h1 := h j (by simp)
    have h2 := ih (fun i hi => h i (by simp [hi]))
    simp only [changesAt, List.flatMap_cons] at h2 ⊢
    rw [h2, List.getElem?_append_left h1]

theorem streamChanges_snoc (acc : List DMsg) (m : DMsg) (u : Url) :
    streamChanges pks (acc ++ [m]) u = streamChanges pks acc u ++ (if m.url = u then msgChanges pks m else []) := by
  simp only [streamChanges, List.filter_append, List.flatMap_append, List.filter_cons, List.filter_nil, decide_eq_true_eq]
  split <;> simp

theorem streamChanges_append (a b : List DMsg) (u : Url) :
    streamChanges pks (a ++ b) u = streamChanges pks a u ++ streamChanges pks b u := by
  simp [streamChanges]

theorem msgChanges_empty {m : DMsg} (h : m.nonempty (dataEnv bytes maxLag maxBytes maxSyncs) ≠ true) :
    msgChanges pks m = [] := by
  have hf : m.batches.flatten = [] := by
    have h : rowsOfBatches (dataEnv bytes maxLag maxBytes maxSyncs) m.batches = 0 := by
      simp only [Msg.nonempty] at h
      simpa using h
    apply List.eq_nil_of_length_eq_zero
    rw [List.length_flatten]
    exact h
  simp [msgChanges, hf]

theorem streamChanges_positions (acc : List DMsg) (u : Url) :
    streamChanges pks acc u = changesAt pks acc (positions (dataEnv bytes maxLag maxBytes maxSyncs) acc u) := by
  induction acc using snocInd with
  | h0 => simp [streamChanges, positions, changesAt]
  | h1 acc m ih =>
    rw [streamChanges_snoc, positions_append, changesAt_append, changesAt_mono m (fun j hj => positions_lt hj), ih]
    congr 1
    by_cases hu : m.url = u
    · by_cases hn : m.nonempty (dataEnv bytes maxLag maxBytes maxSyncs) = true
      · rw [if_pos hu, if_pos ⟨hu, hn⟩, changesAt_one (m := m) (by simp)]
      · rw [if_pos hu, if_neg (fun h => hn h.2), msgChanges_empty hn]; rfl
    · rw [if_neg hu, if_neg (fun h => hu h.1)]; rfl

theorem positions_take (env : Env σ β) (acc : List (Msg σ β)) (u : Url) (k : Nat) :
    positions env (acc.take k) u = (positions env acc u).filter (fun j => decide (j < k)) := by
  induction acc using snocInd with
  | h0 => simp [positions]
  | h1 acc m ih =>
    by_cases hk : k ≤ acc.length
    · rw [List.take_append_of_le_length hk, ih, positions_append, List.filter_append]
      split
      · rw [List.filter_cons_of_neg (by simp; omega)]; simp
      · simp
    · rw [List.take_of_length_le (by simp; omega)]
      symm
      rw [List.filter_eq_self]
      intro j hj
      have := positions_lt hj
      simp at this ⊢
      omega

theorem changesAt_take {acc : List DMsg} {ms : List Nat} {k : Nat} (h : ∀ j ∈ ms, j < k) :
    changesAt pks (acc.take k) ms = changesAt pks acc ms := by
  induction ms with
  | nil => rfl
  | cons j ms ih =>
    have h1 := h j (by simp)
    have h2 := ih (fun i hi => h i (by simp [hi]))
    simp only [changesAt, List.flatMap_cons] at h2 ⊢
    rw [h2, List.getElem?_take_of_lt h1]

/-- What is committed are the messages before the first buffered one. -/
theorem committed_done {env : Env σ β} {log0 : Log σ β} {W : World σ β} {u : Url}
    (h : committed log0 W.log u ++ pending W.w u = positions env W.acc u) :
    committed log0 W.log u = positions env (W.acc.take (doneUpto W u)) u := by
  have hs := positions_sorted env W.acc u
  rw [positions_take, ← h, List.filter_append]
  rw [← h, List.pairwise_append] at hs
  obtain ⟨_, hp, hcp⟩ := hs
  have hlt : ∀ j ∈ committed log0 W.log u, j < W.acc.length := by
    intro j hj
    exact positions_lt (env := env) (u := u) (by rw [← h]; exact List.mem_append_left _ hj)
  cases hpend : pending W.w u with
  | nil =>
    have hd : doneUpto W u = W.acc.length := by simp [doneUpto, hpend]
    simp only [hd, List.filter_nil, List.append_nil]
    symm
    rw [List.filter_eq_self]
    intro j hj
    simpa using hlt j hj
  | cons a rest =>
    rw [hpend] at hp hcp
    have hd : doneUpto W u = a := by simp [doneUpto, hpend]
    have h1 : (committed log0 W.log u).filter (fun j => decide (j < a)) = committed log0 W.log u := by
      rw [List.filter_eq_self]
      intro j hj
      simpa using hcp j hj a (by simp)
    have h2 : (a :: rest).filter (fun j => decide (j < a)) = [] := by
      rw [List.filter_eq_nil_iff]
      intro j hj
      rcases List.mem_cons.1 hj with rfl | hj
      · simp
      · have := (List.pairwise_cons.1 hp).1 j hj
        simp; omega
    simp only [hd, h1, h2, List.append_nil]

theorem doneUpto_le {env : Env σ β} {log0 : Log σ β} {W : World σ β} {u : Url}
    (h : committed log0 W.log u ++ pending W.w u = positions env W.acc u) : doneUpto W u ≤ W.acc.length := by
  simp only [doneUpto]
  split
  · exact Nat.le_refl _
  · next j rest hp =>
    refine Nat.le_of_lt (positions_lt (env := env) (u := u) ?_)
    rw [← h, hp]; simp

/-- Every message in a buffer has a position among the accepted ones (C04). -/
theorem changes_committed {log0 : Log Schema (List Row)} {W : World Schema (List Row)} {u : Url}
    (h : committed log0 W.log u ++ pending W.w u = positions (dataEnv bytes maxLag maxBytes maxSyncs) W.acc u) :
    changesAt pks W.acc (commitMsgs (newCommits log0 W.log u)) = streamChanges pks (W.acc.take (doneUpto W u)) u := by
  have h1 := committed_done h
  rw [streamChanges_positions (bytes := bytes) (maxLag := maxLag) (maxBytes := maxBytes) (maxSyncs := maxSyncs), ← h1,
    changesAt_take]
  · rfl
  · intro j hj
    rw [h1, positions_take] at hj
    simpa using (List.mem_filter.1 hj).2

theorem plain_positions {acc : List DMsg} {u : Url} {ms : List Nat}
    (hms : ∀ j ∈ ms, j ∈ positions (dataEnv bytes maxLag maxBytes maxSyncs) acc u)
    (hpl : ∀ m ∈ acc, m.url = u → PlainMsg pks full m) :
    ∀ j ∈ ms, ∀ m, acc[j]? = some m → PlainMsg pks full m := by
  intro j hj m hm
  obtain ⟨h1, h2, _⟩ := mem_positions.1 (hms j hj)
  rw [List.getElem?_eq_getElem h1, Option.some.injEq] at hm
  subst hm
  exact hpl _ (List.getElem_mem h1) h2

theorem stream_prefix_valid {T : Table} {acc : List DMsg} {u : Url} (k : Nat)
    (hv : ValidSeq full T (streamChanges pks acc u)) : ValidSeq full T (streamChanges pks (acc.take k) u) := by
  rw [← List.take_append_drop k acc, streamChanges_append] at hv
  exact (validSeq_append.1 hv).1

/-- The commits of a table in one life of the writer have the effect of the messages they contain. -/
theorem life_effect (hpk : pks ≠ []) (hpf : ∀ n ∈ pks, n ∈ full) {log0 : Log Schema (List Row)}
    {ops : List (Op Schema (List Row))} {W : World Schema (List Row)}
    (hW : W = run (dataEnv bytes maxLag maxBytes maxSyncs) (World.start log0) ops)
    (hack : ∀ op ∈ ops, Outcome.ackLost ∉ op.outs) {u : Url} (hpl : ∀ m ∈ W.acc, m.url = u → PlainMsg pks full m)
    {I : Table} (hv : ValidSeq full I (streamChanges pks W.acc u)) :
    GroupsEffect pks full I (commitChanges pks W.acc (newCommits log0 W.log u))
      ((dataCommits (newCommits log0 W.log u)).map (fun c => plannerItems c.items)) ∧
    (commitChanges pks W.acc (newCommits log0 W.log u)).flatten = streamChanges pks (W.acc.take (doneUpto W u)) u := by
  have hx := (C04_exactly_once _ log0 ops W hW hack u).1
  have hs : Sqd (dataEnv bytes maxLag maxBytes maxSyncs) log0 W.w W.log W.acc := by rw [hW]; exact sqd_run _ log0 ops
  have hc := changes_committed (pks := pks) hx
  refine ⟨commits_effect (bytes := bytes) (maxLag := maxLag) (maxBytes := maxBytes) (maxSyncs := maxSyncs) hpk hpf (hs.com u)
    (plain_positions (bytes := bytes) (maxLag := maxLag) (maxBytes := maxBytes) (maxSyncs := maxSyncs)
      (fun j hj => ?_) hpl) ?_, ?_⟩
  · rw [← hx]; exact List.mem_append_left _ hj
  · rw [hc]; exact stream_prefix_valid _ hv
  · rw [commitChanges_flatten, hc]

/-- The content of a table does not depend on what was there if nothing of it is sent again. -/
theorem GroupsEffect.fresh {I : Table} {gs : List (List Change)} {os : List (List SItem)}
    (h : GroupsEffect pks full I gs os) (hv : ValidSeq full I gs.flatten) (base : List TRow) (hb : Keyed pks full base)
    (hI : tableOf pks base = I) :
    ∃ out, flushAll full os base = some out ∧ Keyed pks full out ∧ tableOf pks out = replay full I gs.flatten := by
  obtain ⟨out, h1, h2, h3⟩ := h.flush hv base hb
  refine ⟨out, h1, h2, ?_⟩
  funext k
  by_cases hs : Seen full k I gs
  · exact (h3 k).1 hs
  · obtain ⟨h4, h5⟩ := (h3 k).2 hs
    rw [h4, h5, hI]

/-! ### C105 -/

/-- **C105** (partial).  After any history of one process the table holds exactly the result of the changes accepted
for it, in the order of acceptance, up to the first change that is still buffered. -/
theorem C105_content_partial (hpk : pks ≠ []) (hpf : ∀ n ∈ pks, n ∈ full) (log0 : Log Schema (List Row))
    (ops : List (Op Schema (List Row))) (W : World Schema (List Row))
    (hW : W = run (dataEnv bytes maxLag maxBytes maxSyncs) (World.start log0) ops)
    (hack : ∀ op ∈ ops, Outcome.ackLost ∉ op.outs) (u : Url) (hpl : ∀ m ∈ W.acc, m.url = u → PlainMsg pks full m)
    (base0 : List TRow) (hb : Keyed pks full base0)
    (hv : ValidSeq full (tableOf pks base0) (streamChanges pks W.acc u)) :
    ∃ out, contents full (newCommits log0 W.log u) base0 = some out ∧ Keyed pks full out ∧
      tableOf pks out = replay full (tableOf pks base0) (streamChanges pks (W.acc.take (doneUpto W u)) u) := by
  obtain ⟨h1, h2⟩ := life_effect hpk hpf hW hack hpl hv
  rw [contents_eq, ← h2]
  exact h1.fresh (by rw [h2]; exact stream_prefix_valid _ hv) base0 hb rfl

/-- C105.  What is reported as durable is in the table, and everything accepted before it. -/
theorem C105_durable (env : Env σ β) (log0 : Log σ β) (ops : List (Op σ β)) (W : World σ β)
    (hW : W = run env (World.start log0) ops) (hack : ∀ op ∈ ops, Outcome.ackLost ∉ op.outs) (o : Origin) (s : Seq)
    (h : W.w.originDurable o = some s) :
    ∃ i m, W.acc[i]? = some m ∧ m.origin = o ∧ m.sequence = some s ∧ ∀ u, i < doneUpto W u := by
  obtain ⟨i, m, h1, h2, h3, h4⟩ := C01_durable_is_committed env log0 ops o s W hW h
  refine ⟨i, m, h1, h2, h3, fun u => ?_⟩
  have hx := (C04_exactly_once env log0 ops W hW hack u).1
  have hs := positions_sorted env W.acc u
  rw [← hx, List.pairwise_append] at hs
  simp only [doneUpto]
  split
  · exact (List.getElem?_eq_some_iff.1 h1).1
  · next j rest hp =>
    apply Classical.byContradiction
    intro hlt
    have hj : j ∈ positions env W.acc u := by rw [← hx, hp]; simp
    obtain ⟨g1, g2, g3⟩ := mem_positions.1 hj
    obtain ⟨cm, k1, it, k2, k3, _⟩ := h4 j W.acc[j] (by omega) (List.getElem?_eq_getElem g1) g3
    rw [g2] at k1
    have hc : j ∈ committed log0 W.log u := by
      simp only [committed, commitMsgs]
      exact List.mem_flatMap.2 ⟨cm, k1, List.mem_flatMap.2 ⟨it, k2, k3⟩⟩
    have := hs.2.2 j hc j (by rw [hp]; simp)
    omega

/-- C105.  Nothing buffered: the table holds the result of all accepted changes. -/
theorem C105_flushed_partial (hpk : pks ≠ []) (hpf : ∀ n ∈ pks, n ∈ full) (log0 : Log Schema (List Row))
    (ops : List (Op Schema (List Row))) (W : World Schema (List Row))
    (hW : W = run (dataEnv bytes maxLag maxBytes maxSyncs) (World.start log0) ops)
    (hack : ∀ op ∈ ops, Outcome.ackLost ∉ op.outs) (u : Url) (hpl : ∀ m ∈ W.acc, m.url = u → PlainMsg pks full m)
    (base0 : List TRow) (hb : Keyed pks full base0)
    (hv : ValidSeq full (tableOf pks base0) (streamChanges pks W.acc u)) (hp : alGet u W.w.syncs = none) :
    ∃ out, contents full (newCommits log0 W.log u) base0 = some out ∧
      tableOf pks out = replay full (tableOf pks base0) (streamChanges pks W.acc u) := by
  obtain ⟨out, h1, _, h3⟩ := C105_content_partial hpk hpf log0 ops W hW hack u hpl base0 hb hv
  have : doneUpto W u = W.acc.length := by simp [doneUpto, pending, hp]
  rw [this, List.take_length] at h3
  exact ⟨out, h1, h3⟩

/-! ### a process that dies in a flush -/

theorem flushSyncs_fail_log (env : Env σ β) (w : Writer σ β) (log : Log σ β) (u : Url) :
    (flushSyncs env w log u (.fail false)).2.1 = log := by
  simp only [flushSyncs]
  split
  · rfl
  · split <;> rfl

theorem flushSyncs_lost (env : Env σ β) (w : Writer σ β) (log : Log σ β) (u : Url) :
    (flushSyncs env w log u .ackLost).2.1 = (flushSyncs env w log u .ok).2.1 ∧
    ((flushSyncs env w log u .ackLost).2.2 = true → flushSyncs env w log u .ackLost = flushSyncs env w log u .ok) := by
  simp only [flushSyncs]
  split
  · exact ⟨rfl, fun _ => rfl⟩
  · split
    · exact ⟨rfl, fun _ => rfl⟩
    · split
      · exact ⟨rfl, fun _ => rfl⟩
      · split
        · exact ⟨rfl, fun _ => rfl⟩
        · exact ⟨rfl, fun h => by cases h⟩

theorem flushLoop_url {env : Env σ β} {now fuel : Nat} {w : Writer σ β} {log : Log σ β} {u : Url}
    (hr : (flushReady env w now).2 = .url u) {outs os : List Outcome} {o : Outcome} (ho : outs.headD .ok = o)
    (hos : outs.tail = os) :
    flushLoop env now (fuel + 1) outs w log =
      if (flushSyncs env (flushReady env w now).1 log u o).2.2 = true then
        flushLoop env now fuel os (flushSyncs env (flushReady env w now).1 log u o).1
          (flushSyncs env (flushReady env w now).1 log u o).2.1
      else ((flushSyncs env (flushReady env w now).1 log u o).1, (flushSyncs env (flushReady env w now).1 log u o).2.1,
        .err) := by
  subst ho; subst hos
  simp only [flushLoop, hr]

theorem flushLoop_fails (env : Env σ β) (now : Nat) (fuel : Nat) : ∀ (w : Writer σ β) (log : Log σ β),
    (flushLoop env now fuel (List.replicate fuel (.fail false)) w log).2.1 = log := by
  induction fuel with
  | zero => intro w log; rfl
  | succ fuel ih =>
    intro w log
    cases hr : (flushReady env w now).2 with
    | error => simp only [flushLoop, hr]
    | nothing => simp only [flushLoop, hr]
    | url u =>
      rw [flushLoop_url hr (o := .fail false) (os := List.replicate fuel (.fail false)) rfl rfl]
      split
      · rw [ih, flushSyncs_fail_log]
      · exact flushSyncs_fail_log _ _ _ _

/-- A flush whose process dies after a commit leaves the log of a flush that goes on to fail. -/
theorem flushLoop_lost (env : Env σ β) (now : Nat) (fuel : Nat) : ∀ (outs : List Outcome) (w : Writer σ β) (log : Log σ β),
    ∃ outs', Outcome.ackLost ∉ outs' ∧
      (flushLoop env now fuel outs' w log).2.1 = (flushLoop env now fuel outs w log).2.1 := by
  induction fuel with
  | zero => intro outs w log; exact ⟨[], by simp, rfl⟩
  | succ fuel ih =>
    intro outs w log
    cases hr : (flushReady env w now).2 with
    | error => exact ⟨[], by simp, by simp only [flushLoop, hr]⟩
    | nothing => exact ⟨[], by simp, by simp only [flushLoop, hr]⟩
    | url u =>
      by_cases hl : outs.headD .ok = .ackLost
      · obtain ⟨h1, h2⟩ := flushSyncs_lost env (flushReady env w now).1 log u
        by_cases ht : (flushSyncs env (flushReady env w now).1 log u .ackLost).2.2 = true
        · have h3 := h2 ht
          obtain ⟨outs', h4, h5⟩ := ih outs.tail (flushSyncs env (flushReady env w now).1 log u .ok).1
            (flushSyncs env (flushReady env w now).1 log u .ok).2.1
          refine ⟨.ok :: outs', by simp [h4], ?_⟩
          rw [flushLoop_url hr (o := .ok) (os := outs') rfl rfl, flushLoop_url hr hl rfl, h3, if_pos (h3 ▸ ht),
            if_pos (h3 ▸ ht)]
          exact h5
        · refine ⟨.ok :: List.replicate fuel (.fail false), by simp, ?_⟩
          rw [flushLoop_url hr (o := .ok) (os := List.replicate fuel (.fail false)) rfl rfl, flushLoop_url hr hl rfl,
            if_neg ht]
          split
          · rw [flushLoop_fails, h1]
          · exact h1.symm
      · obtain ⟨outs', h4, h5⟩ := ih outs.tail (flushSyncs env (flushReady env w now).1 log u (outs.headD .ok)).1
            (flushSyncs env (flushReady env w now).1 log u (outs.headD .ok)).2.1
        refine ⟨outs.headD .ok :: outs', by simp only [List.mem_cons, not_or]; exact ⟨fun h => hl h.symm, h4⟩, ?_⟩
        rw [flushLoop_url hr (outs := outs.headD .ok :: outs') (o := outs.headD .ok) (os := outs') rfl rfl,
           flushLoop_url hr (outs := outs) rfl rfl]
        by_cases hc : (flushSyncs env (flushReady env w now).1 log u (outs.headD .ok)).2.2 = true
        · rw [if_pos hc, if_pos hc]; exact h5
        · rw [if_neg hc, if_neg hc]

theorem step_lost (env : Env σ β) (W : World σ β) (op : Op σ β) :
    ∃ op', Outcome.ackLost ∉ op'.outs ∧ (step env W op').1.log = (step env W op).1.log ∧
      (step env W op').1.acc = (step env W op).1.acc := by
  cases op with
  | external u => exact ⟨.external u, by simp [Op.outs], rfl, rfl⟩
  | tick now lock outs =>
    obtain ⟨outs', h1, h2⟩ := flushLoop_lost env now (W.w.syncs.length + 1) outs W.w W.log
    refine ⟨.tick now lock outs', h1, ?_, ?_⟩
    · simp only [step, flushTick]
      cases lock with
      | false => rfl
      | true => exact h2
    · simp only [step, flushTick]
      cases lock <;> rfl
  | sync m now lock outs =>
    cases he : enqueue env W.w now m W.acc.length with
    | error e =>
      refine ⟨.sync m now lock [], by simp [Op.outs], ?_, ?_⟩ <;>
      · simp only [step, processSync, he]
    | ok w1 =>
      obtain ⟨outs', h1, h2⟩ := flushLoop_lost env now (w1.syncs.length + 1) outs w1 W.log
      refine ⟨.sync m now lock outs', h1, ?_, ?_⟩
      · simp only [step, processSync, he]
        split
        · rfl
        · split
          · rfl
          · split
            · rfl
            · exact h2
      · simp only [step, processSync, he]
        split
        · rfl
        · split
          · rfl
          · split <;> rfl

theorem run_snoc (env : Env σ β) (W : World σ β) (ops : List (Op σ β)) (op : Op σ β) :
    run env W (ops ++ [op]) = (step env (run env W ops) op).1 := by
  induction ops generalizing W with
  | nil => rfl
  | cons o ops ih => exact ih _

/-- What is durable lies before the first message that another view of the same commits still buffers. -/
theorem durable_before {env : Env σ β} {log0 : Log σ β} {W W' : World σ β} (hlog : W'.log = W.log) (hacc : W'.acc = W.acc)
    (hx : ∀ u, committed log0 W'.log u ++ pending W'.w u = positions env W'.acc u) {i : Nat} {m : Msg σ β}
    (h1 : W.acc[i]? = some m)
    (h4 : ∀ j m', j ≤ i → W.acc[j]? = some m' → m'.nonempty env = true → InTable env log0 W.log W.acc j m'.url) (u : Url) :
    i < doneUpto W' u := by
  have hx := hx u
  have hs := positions_sorted env W'.acc u
  rw [← hx, List.pairwise_append] at hs
  rw [← hlog, ← hacc] at h4
  rw [← hacc] at h1
  simp only [doneUpto]
  split
  · exact (List.getElem?_eq_some_iff.1 h1).1
  · next j rest hp =>
    apply Classical.byContradiction
    intro hlt
    have hj : j ∈ positions env W'.acc u := by rw [← hx, hp]; simp
    obtain ⟨g1, g2, g3⟩ := mem_positions.1 hj
    obtain ⟨cm, k1, it, k2, k3, _⟩ := h4 j W'.acc[j] (by omega) (List.getElem?_eq_getElem g1) g3
    rw [g2] at k1
    have hc : j ∈ committed log0 W'.log u := by
      simp only [committed, commitMsgs]
      exact List.mem_flatMap.2 ⟨cm, k1, List.mem_flatMap.2 ⟨it, k2, k3⟩⟩
    have := hs.2.2 j hc j (by rw [hp]; simp)
    omega

/-- C105.  A process that dies in the middle of a flush, before or after any of its commits: the table holds the result
of the changes up to some point, and this point lies after everything that was reported as durable. -/
theorem C105_crash_partial (hpk : pks ≠ []) (hpf : ∀ n ∈ pks, n ∈ full) (log0 : Log Schema (List Row))
    (ops : List (Op Schema (List Row))) (last : Op Schema (List Row)) (W : World Schema (List Row))
    (hW : W = run (dataEnv bytes maxLag maxBytes maxSyncs) (World.start log0) (ops ++ [last]))
    (hack : ∀ op ∈ ops, Outcome.ackLost ∉ op.outs) (u : Url) (hpl : ∀ m ∈ W.acc, m.url = u → PlainMsg pks full m)
    (base0 : List TRow) (hb : Keyed pks full base0)
    (hv : ValidSeq full (tableOf pks base0) (streamChanges pks W.acc u)) :
    ∃ k ≤ W.acc.length, (∃ out, contents full (newCommits log0 W.log u) base0 = some out ∧ Keyed pks full out ∧
      tableOf pks out = replay full (tableOf pks base0) (streamChanges pks (W.acc.take k) u)) ∧
      ∀ o s, W.w.originDurable o = some s →
        ∃ i m, W.acc[i]? = some m ∧ m.origin = o ∧ m.sequence = some s ∧ i < k := by
  obtain ⟨last', h1, h2, h3⟩ := step_lost (dataEnv bytes maxLag maxBytes maxSyncs)
    (run (dataEnv bytes maxLag maxBytes maxSyncs) (World.start log0) ops) last
  have hack' : ∀ op ∈ ops ++ [last'], Outcome.ackLost ∉ op.outs := by
    intro op hop
    rcases List.mem_append.1 hop with h | h
    · exact hack op h
    · simp only [List.mem_singleton] at h; subst h; exact h1
  obtain ⟨W', hW'⟩ : ∃ W', W' = run (dataEnv bytes maxLag maxBytes maxSyncs) (World.start log0) (ops ++ [last']) := ⟨_, rfl⟩
  have hl : W'.log = W.log := by rw [hW, hW', run_snoc, run_snoc, h2]
  have ha : W'.acc = W.acc := by rw [hW, hW', run_snoc, run_snoc, h3]
  have hx := fun u => (C04_exactly_once _ log0 _ W' hW' hack' u).1
  refine ⟨doneUpto W' u, ha ▸ doneUpto_le (hx u), ?_, ?_⟩
  · obtain ⟨out, g1, g2, g3⟩ := C105_content_partial hpk hpf log0 _ W' hW' hack' u (ha ▸ hpl) base0 hb (ha ▸ hv)
    rw [hl] at g1
    rw [ha] at g3
    exact ⟨out, g1, g2, g3⟩
  · intro o s hd
    obtain ⟨i, m, k1, k2, k3, k4⟩ := C01_durable_is_committed _ log0 _ o s W hW hd
    exact ⟨i, m, k1, k2, k3, durable_before hl ha hx k1 k4 u⟩

/-! ### C106 -/

theorem contents_append (a b : List (Commit Schema (List Row))) (base : List TRow) :
    contents full (a ++ b) base = (contents full a base).bind (contents full b) := by
  induction a generalizing base with
  | nil => rfl
  | cons c a ih =>
    simp only [List.cons_append, contents]
    cases hc : c.items.isEmpty with
    | true => simp only [if_true]; exact ih base
    | false =>
      simp only [Bool.false_eq_true, if_false]
      cases flushRows full (plannerItems c.items) base with
      | none => rfl
      | some b' => exact ih b'

theorem newCommits_trans {log0 log1 log2 : Log σ β} {u : Url} (h1 : log0 u <+: log1 u) (h2 : log1 u <+: log2 u) :
    newCommits log0 log2 u = newCommits log0 log1 u ++ newCommits log1 log2 u := by
  obtain ⟨a, ha⟩ := h1
  obtain ⟨b, hb⟩ := h2
  simp only [newCommits, ← hb, ← ha]
  rw [List.append_assoc]
  simp

theorem take_prefix_take {α : Type} {x y : List α} {a b : Nat} (h : a ≤ b) : x.take a <+: (x ++ y).take b := by
  refine List.IsPrefix.trans (l₂ := (x ++ y).take a) ?_ (List.take_prefix_take_left h)
  rw [List.take_append]
  exact List.prefix_append _ _

/-- **C106** (partial).  A second process starts with what the first one left, and the client sends again all messages
from number `i` on and then new ones.  The table is right if and only if every row it had at the restart is present in
the right table at the time of one of the commits of the second process. -/
theorem C106_restart_partial (hpk : pks ≠ []) (hpf : ∀ n ∈ pks, n ∈ full) (log0 log1 : Log Schema (List Row))
    (acc1 more : List DMsg) (ops2 : List (Op Schema (List Row))) (W2 : World Schema (List Row)) (u : Url)
    (base0 base1 : List TRow) (i k1 : Nat)
    (hlog : log0 u <+: log1 u) (hc1 : contents full (newCommits log0 log1 u) base0 = some base1)
    (hb1 : Keyed pks full base1)
    (ht1 : tableOf pks base1 = replay full (tableOf pks base0) (streamChanges pks (acc1.take k1) u)) (hi : i ≤ k1)
    (hW2 : W2 = run (dataEnv bytes maxLag maxBytes maxSyncs) (World.start log1) ops2)
    (hack2 : ∀ op ∈ ops2, Outcome.ackLost ∉ op.outs) (hacc2 : W2.acc = acc1.drop i ++ more)
    (hk : k1 ≤ i + doneUpto W2 u)
    (hpl : ∀ m ∈ acc1 ++ more, m.url = u → PlainMsg pks full m)
    (hv : ValidSeq full (tableOf pks base0) (streamChanges pks (acc1 ++ more) u)) :
    ∃ out, contents full (newCommits log0 W2.log u) base0 = some out ∧ Keyed pks full out ∧
      (tableOf pks out = replay full (tableOf pks base0)
          (streamChanges pks (acc1.take i ++ W2.acc.take (doneUpto W2 u)) u) ↔
        ∀ k, (tableOf pks base1 k).isSome →
          ∃ B ∈ boundaries full (replay full (tableOf pks base0) (streamChanges pks (acc1.take i) u))
              (commitChanges pks W2.acc (newCommits log1 W2.log u)), (B k).isSome) := by
  have hsplit : streamChanges pks (acc1 ++ more) u = streamChanges pks (acc1.take i) u ++ streamChanges pks W2.acc u := by
    rw [hacc2, ← streamChanges_append, ← List.append_assoc, List.take_append_drop]
  rw [hsplit] at hv
  have hv' := (validSeq_append.1 hv).2
  have hpl2 : ∀ m ∈ W2.acc, m.url = u → PlainMsg pks full m := by
    intro m hm
    rw [hacc2] at hm
    rcases List.mem_append.1 hm with h | h
    · exact hpl m (List.mem_append_left _ (List.mem_of_mem_drop h))
    · exact hpl m (List.mem_append_right _ h)
  obtain ⟨h1, h2⟩ := life_effect hpk hpf hW2 hack2 hpl2 hv'
  have hpre : log1 u <+: W2.log u := by
    have := (full_run (dataEnv bytes maxLag maxBytes maxSyncs) log1 ops2).inv.pre u
    rwa [← hW2] at this
  have htake : acc1.take k1 = acc1.take i ++ (acc1.drop i).take (k1 - i) := by
    have := List.take_add (l := acc1) (i := i) (j := k1 - i)
    rwa [Nat.add_sub_cancel' hi] at this
  have hbase : tableOf pks base1 = replay full (replay full (tableOf pks base0) (streamChanges pks (acc1.take i) u))
      (streamChanges pks ((acc1.drop i).take (k1 - i)) u) := by
    rw [ht1, htake, streamChanges_append, replay_append]
  have hp : streamChanges pks ((acc1.drop i).take (k1 - i)) u <+:
      (commitChanges pks W2.acc (newCommits log1 W2.log u)).flatten := by
    rw [h2]
    obtain ⟨t, ht⟩ := take_prefix_take (x := acc1.drop i) (y := more) (a := k1 - i) (b := doneUpto W2 u) (by omega)
    rw [← hacc2] at ht
    rw [← ht, streamChanges_append]
    exact List.prefix_append _ _
  obtain ⟨out, g1, g2, g3⟩ := h1.resend (by rw [h2]; exact stream_prefix_valid _ hv') base1 hb1 _ hp hbase
  refine ⟨out, ?_, g2, ?_⟩
  · rw [newCommits_trans hlog hpre, contents_append, hc1, Option.bind_some, contents_eq, g1]
  · rw [streamChanges_append, replay_append, ← h2]
    exact g3

theorem replay_keeps {chs : List Change} {k : Key} : ∀ {T : Table}, (∀ ch ∈ chs, ch.old = none ∨ ch.old = ch.new) →
    (T k).isSome → (replay full T chs k).isSome := by
  induction chs with
  | nil => intro T _ h; exact h
  | cons ch chs ih =>
    intro T hn h
    refine ih (fun c hc => hn c (by simp [hc])) ?_
    simp only [apply1]
    split
    · rfl
    · next h4 =>
      split
      · next h5 =>
        rcases hn ch (by simp) with h6 | h6
        · rw [h6] at h5; cases h5
        · exact absurd (h6 ▸ h5) h4
      · exact h

/-- C106.  The table is right if nothing is deleted among what the client sends to the second process. -/
theorem C106_no_deletes (hpk : pks ≠ []) (hpf : ∀ n ∈ pks, n ∈ full) (log0 log1 : Log Schema (List Row))
    (acc1 more : List DMsg) (ops2 : List (Op Schema (List Row))) (W2 : World Schema (List Row)) (u : Url)
    (base0 base1 : List TRow) (i k1 : Nat)
    (hlog : log0 u <+: log1 u) (hc1 : contents full (newCommits log0 log1 u) base0 = some base1)
    (hb1 : Keyed pks full base1)
    (ht1 : tableOf pks base1 = replay full (tableOf pks base0) (streamChanges pks (acc1.take k1) u)) (hi : i ≤ k1)
    (hW2 : W2 = run (dataEnv bytes maxLag maxBytes maxSyncs) (World.start log1) ops2)
    (hack2 : ∀ op ∈ ops2, Outcome.ackLost ∉ op.outs) (hacc2 : W2.acc = acc1.drop i ++ more)
    (hk : k1 ≤ i + doneUpto W2 u)
    (hpl : ∀ m ∈ acc1 ++ more, m.url = u → PlainMsg pks full m)
    (hv : ValidSeq full (tableOf pks base0) (streamChanges pks (acc1 ++ more) u))
    (hnd : ∀ ch ∈ streamChanges pks W2.acc u, ch.new ≠ none) :
    ∃ out, contents full (newCommits log0 W2.log u) base0 = some out ∧ Keyed pks full out ∧
      tableOf pks out = replay full (tableOf pks base0)
          (streamChanges pks (acc1.take i ++ W2.acc.take (doneUpto W2 u)) u) := by
  obtain ⟨out, h1, h2, h3⟩ := C106_restart_partial hpk hpf log0 log1 acc1 more ops2 W2 u base0 base1 i k1 hlog hc1 hb1 ht1
    hi hW2 hack2 hacc2 hk hpl hv
  refine ⟨out, h1, h2, h3.2 (fun k hkk => ⟨_, boundaries_last _ _, ?_⟩)⟩
  have hsplit : streamChanges pks (acc1 ++ more) u = streamChanges pks (acc1.take i) u ++ streamChanges pks W2.acc u := by
    rw [hacc2, ← streamChanges_append, ← List.append_assoc, List.take_append_drop]
  rw [hsplit] at hv
  have hpl2 : ∀ m ∈ W2.acc, m.url = u → PlainMsg pks full m := by
    intro m hm
    rw [hacc2] at hm
    rcases List.mem_append.1 hm with h | h
    · exact hpl m (List.mem_append_left _ (List.mem_of_mem_drop h))
    · exact hpl m (List.mem_append_right _ h)
  rw [(life_effect hpk hpf hW2 hack2 hpl2 (validSeq_append.1 hv).2).2]
  obtain ⟨t, ht⟩ := take_prefix_take (x := acc1.drop i) (y := more) (a := k1 - i) (b := doneUpto W2 u) (by omega)
  rw [← hacc2] at ht
  have htake : acc1.take k1 = acc1.take i ++ (acc1.drop i).take (k1 - i) := by
    have := List.take_add (l := acc1) (i := i) (j := k1 - i)
    rwa [Nat.add_sub_cancel' hi] at this
  rw [← ht, streamChanges_append, replay_append]
  rw [ht1, htake, streamChanges_append, replay_append] at hkk
  refine replay_keeps (fun ch hch => ?_) hkk
  have hm : ch ∈ streamChanges pks W2.acc u := by
    rw [← List.take_append_drop (doneUpto W2 u) W2.acc, ← ht, streamChanges_append, streamChanges_append]
    exact List.mem_append_left _ (List.mem_append_right _ hch)
  have hst : Stable ch := by
    simp only [streamChanges, List.mem_flatMap, List.mem_filter, decide_eq_true_eq, msgChanges, List.mem_map] at hm
    obtain ⟨m, ⟨hm1, hm2⟩, r, hr, rfl⟩ := hm
    exact (hpl2 m hm1 hm2).stay r hr
  rcases hst with h | h | h
  · exact Or.inl h
  · exact absurd h (hnd ch hm)
  · exact Or.inr h

/-! ### concrete cases -/

namespace EeDemo
open SqDemo RsDemo

/-- Flush as soon as there is one message, or never. -/
def env1 : Env Schema (List Row) := dataEnv List.length 10 1000 1
def env5 : Env Schema (List Row) := dataEnv List.length 10 1000 5

def msg (s : Nat) (rows : List Row) : DMsg :=
  { url := "t", iceberg := false, origin := "o", sequence := some s, schema := S3, batches := [rows] }

/-- A first process that flushes the first message and keeps the second one. -/
def ops1 : List (Op Schema (List Row)) :=
  [.sync (msg 1 ins) 0 true [], .tick 11 true [], .sync (msg 2 del) 12 true []]

def W1 : World Schema (List Row) := run env5 (World.start fun _ => []) ops1

example : doneUpto W1 "t" = 1 ∧ W1.acc.length = 2 ∧ W1.w.originDurable "o" = some 1 ∧
    show' (contents ["id", "v"] (newCommits (fun _ => []) W1.log "t") base0) =
      some [[i 1, i 11], [i 3, i 30]] := by decide +kernel

/-- A process that dies after the commit of the first message and before it knows: nothing is durable. -/
def W0 : World Schema (List Row) := run env5 (World.start fun _ => [])
  [.sync (msg 1 ins) 0 true [], .tick 11 true [.ackLost]]

example : W0.w.originDurable "o" = none ∧
    show' (contents ["id", "v"] (newCommits (fun _ => []) W0.log "t") base0) =
      some [[i 1, i 11], [i 3, i 30]] := by decide +kernel

/-- The client sends everything again to a second process, which flushes both messages together. -/
def W2 : World Schema (List Row) := run env5 (World.start W0.log)
  [.sync (msg 1 ins) 0 true [], .sync (msg 2 del) 1 true [], .tick 12 true []]

/-- Or one by one. -/
def W2' : World Schema (List Row) := run env1 (World.start W0.log)
  [.sync (msg 1 ins) 0 true [], .sync (msg 2 del) 1 true [], .tick 12 true []]

example : show' (contents ["id", "v"] (newCommits (fun _ => []) W2'.log "t") base0) = some [[i 1, i 11]] := by
  decide +kernel

theorem plain (s : Nat) (rows : List Row) (h : rows = ins ∨ rows = del) : PlainMsg ["id"] ["id", "v"] (msg s rows) := by
  refine ⟨⟨fullItem.ok, fullItem.flags, fullItem.cols⟩, ?_, ?_⟩
  · intro r hr
    simp only [msg, List.flatten_cons, List.flatten_nil, List.append_nil] at hr
    rcases h with rfl | rfl
    · simp only [ins, List.mem_cons, List.not_mem_nil, or_false] at hr
      rcases hr with rfl | rfl <;> decide
    · simp only [del, List.mem_cons, List.not_mem_nil, or_false] at hr
      subst hr; decide
  · intro r hr
    show (changeOf ["id"] S3 r).old = none ∨ (changeOf ["id"] S3 r).new = none ∨
      (changeOf ["id"] S3 r).old = (changeOf ["id"] S3 r).new
    simp only [msg, List.flatten_cons, List.flatten_nil, List.append_nil] at hr
    rcases h with rfl | rfl
    · simp only [ins, List.mem_cons, List.not_mem_nil, or_false] at hr
      rcases hr with rfl | rfl <;> decide
    · simp only [del, List.mem_cons, List.not_mem_nil, or_false] at hr
      subst hr; decide

theorem acc2 : W2.acc = [msg 1 ins, msg 2 del] := rfl

theorem acc1 : W1.acc = [msg 1 ins, msg 2 del] := rfl

theorem validStream : ValidSeq ["id", "v"] (tableOf ["id"] base0) (streamChanges ["id"] [msg 1 ins, msg 2 del] "t") := valid

end EeDemo

open SqDemo RsDemo EeDemo in
/-- The hypotheses of C105 and C106 are met by these histories. -/
example : (∀ m ∈ W1.acc, m.url = "t" → PlainMsg ["id"] ["id", "v"] m) ∧
    ValidSeq ["id", "v"] (tableOf ["id"] base0) (streamChanges ["id"] W1.acc "t") ∧
    W2.acc = W1.acc.drop 0 ++ [] ∧ doneUpto W2 "t" = 2 := by
  refine ⟨?_, validStream, rfl, by decide +kernel⟩
  intro m hm _
  rw [acc1] at hm
  simp only [List.mem_cons, List.not_mem_nil, or_false] at hm
  rcases hm with rfl | rfl
  · exact plain 1 _ (Or.inl rfl)
  · exact plain 2 _ (Or.inr rfl)

open SqDemo RsDemo EeDemo in
/-- **C106 is violated**: the first process dies after it committed the insertion of row 3 and before it reported
anything; the client sends the insertion and the deletion again, the second process commits both together, reports them
as durable, and the row stays. -/
theorem C106_violated : ∃ (W0 W2 : World Schema (List Row)) (ops0 ops2 : List (Op Schema (List Row))) (out : List TRow),
    W0 = run env5 (World.start fun _ => []) ops0 ∧ W2 = run env5 (World.start W0.log) ops2 ∧
    (∀ o, W0.w.originDurable o = none) ∧ W0.acc <+: W2.acc ∧ W2.w.originDurable "o" = some 2 ∧
    (∀ m ∈ W2.acc, m.url = "t" ∧ PlainMsg ["id"] ["id", "v"] m) ∧
    ValidSeq ["id", "v"] (tableOf ["id"] base0) (streamChanges ["id"] W2.acc "t") ∧
    contents ["id", "v"] (newCommits (fun _ => []) W2.log "t") base0 = some out ∧
    tableOf ["id"] out ≠ replay ["id", "v"] (tableOf ["id"] base0) (streamChanges ["id"] W2.acc "t") := by
  refine ⟨W0, W2, _, _, _, rfl, rfl, ?_, ⟨[msg 2 del], rfl⟩, by decide +kernel, ?_, validStream, rfl, ?_⟩
  · intro o; rfl
  · intro m hm
    rw [acc2] at hm
    simp only [List.mem_cons, List.not_mem_nil, or_false] at hm
    rcases hm with rfl | rfl
    · exact ⟨rfl, plain 1 _ (Or.inl rfl)⟩
    · exact ⟨rfl, plain 2 _ (Or.inr rfl)⟩
  · intro h
    have h1 := congrArg (fun T : Table => (T [i 3]).map (fun r => r "v")) h
    revert h1
    decide +kernel

end Seafowl.Sync
