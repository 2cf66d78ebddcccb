import Verif.Sync.FileHistory
import Verif.Sync.EndToEndProps
import Verif.Sync.SchemaProps

/-!
# C105 with files

The content of a synced table through all flushes, with the choice of files in each of them.
-/

namespace Seafowl.Sync

variable {pks full : List String} {bytes : List Row → Nat} {maxLag maxBytes maxSyncs : Nat}

theorem keyed_perm {a b : List TRow} (hp : a.Perm b) (h : Keyed pks full b) : Keyed pks full a :=
  ⟨(hp.map _).nodup_iff.2 h.nodup, fun r hr => h.nonnull r (hp.mem_iff.1 hr), fun r hr => h.cols r (hp.mem_iff.1 hr)⟩

/-- The files after the commits of one life of the writer hold the result of the messages in the commits. -/
theorem filesAfter_effect (hpk : pks ≠ []) (hpf : ∀ n ∈ pks, n ∈ full) {cs : List (Commit Schema (List Row))}
    {sn sn' : Snapshot} (h : FilesAfter full cs sn sn') : ∀ {I : Table} {gs : List (List Change)},
    GroupsEffect pks full I gs ((dataCommits cs).map (fun c => plannerItems c.items)) →
    ValidSeq full I gs.flatten → Keyed pks full (fileRows sn.files) → Bounded sn → tableOf pks (fileRows sn.files) = I →
    Keyed pks full (fileRows sn'.files) ∧ Bounded sn' ∧ tableOf pks (fileRows sn'.files) = replay full I gs.flatten := by
  induction h with
  | nil sn =>
    intro I gs hg _ hb hs hI
    cases hg
    exact ⟨hb, hs, hI⟩
  | other hc _ ih =>
    intro I gs hg hv hb hs hI
    simp only [dataCommits, List.filter_cons, hc, Bool.not_true, Bool.false_eq_true, if_false] at hg
    exact ih hg hv hb hs hI
  | @flush c cs sn mid sn' keep out new hc hk ho hp hm hs' _ ih =>
    intro I gs hg hv hb hs hI
    simp only [dataCommits, List.filter_cons, hc, Bool.not_false, if_true, List.map_cons] at hg
    cases hg with
    | @cons _ g _ gs _ N hN hrest =>
      rw [List.flatten_cons] at hv ⊢
      have hv' := validSeq_append.1 hv
      have hflush : flushFiles full (plannerItems c.items) sn = some (fileRows (untouched sn.files keep) ++ out) := by
        simp only [flushFiles, hk, ho]
      obtain ⟨out', h1, h2, h3⟩ := flushFiles_eq hpk hpf sn hs hb _ hN.ok hN.ups hflush
      obtain ⟨out2, h4, h5, h6⟩ := hN.flush _ hb
      rw [h1] at h4
      injection h4 with h4
      subst h4
      have hperm : (fileRows mid.files).Perm (fileRows (untouched sn.files keep) ++ out) := by
        rw [hm]
        show ((untouched sn.files keep ++ new).flatMap _).Perm _
        rw [List.flatMap_append]
        exact List.Perm.append_left _ hp
      have hkm := keyed_perm hperm h3
      rw [replay_append]
      refine ih hrest hv'.2 hkm hs' ?_
      rw [tableOf_perm (hperm.trans h2) hkm.nodup, h6, hI, hN.effect I hv'.1]

/-- **C105** with files (partial).  After any history of one process the files of the table hold exactly the result of
the changes accepted for it, in the order of acceptance, up to the first change that is still buffered: each flush
rewrites only the files that it picks by the statistics of those that the flushes before left, however rows are divided
into files. -/
theorem C105_files_partial (hpk : pks ≠ []) (hpf : ∀ n ∈ pks, n ∈ full) (log0 : Log Schema (List Row))
    (ops : List (Op Schema (List Row))) (W : World Schema (List Row))
    (hW : W = run (dataEnv bytes maxLag maxBytes maxSyncs) (World.start log0) ops)
    (hack : ∀ op ∈ ops, Outcome.ackLost ∉ op.outs) (u : Url) (hpl : ∀ m ∈ W.acc, m.url = u → PlainMsg pks full m)
    (sn0 sn : Snapshot) (hb : Keyed pks full (fileRows sn0.files)) (hs : SoundStats sn0)
    (hv : ValidSeq full (tableOf pks (fileRows sn0.files)) (streamChanges pks W.acc u))
    (hf : FilesAfter full (newCommits log0 W.log u) sn0 sn) :
    Keyed pks full (fileRows sn.files) ∧
      tableOf pks (fileRows sn.files) =
        replay full (tableOf pks (fileRows sn0.files)) (streamChanges pks (W.acc.take (doneUpto W u)) u) := by
  obtain ⟨h1, h2⟩ := life_effect hpk hpf hW hack hpl hv
  obtain ⟨h3, _, h4⟩ := filesAfter_effect hpk hpf hf h1 (by rw [h2]; exact stream_prefix_valid _ hv) hb hs rfl
  rw [h2] at h4
  exact ⟨h3, h4⟩

/-- C105 with files.  A process that dies in the middle of a flush, as in `C105_crash_partial`. -/
theorem C105_files_crash_partial (hpk : pks ≠ []) (hpf : ∀ n ∈ pks, n ∈ full) (log0 : Log Schema (List Row))
    (ops : List (Op Schema (List Row))) (last : Op Schema (List Row)) (W : World Schema (List Row))
    (hW : W = run (dataEnv bytes maxLag maxBytes maxSyncs) (World.start log0) (ops ++ [last]))
    (hack : ∀ op ∈ ops, Outcome.ackLost ∉ op.outs) (u : Url) (hpl : ∀ m ∈ W.acc, m.url = u → PlainMsg pks full m)
    (sn0 sn : Snapshot) (hb : Keyed pks full (fileRows sn0.files)) (hs : SoundStats sn0)
    (hv : ValidSeq full (tableOf pks (fileRows sn0.files)) (streamChanges pks W.acc u))
    (hf : FilesAfter full (newCommits log0 W.log u) sn0 sn) :
    ∃ k ≤ W.acc.length, Keyed pks full (fileRows sn.files) ∧
      tableOf pks (fileRows sn.files) =
        replay full (tableOf pks (fileRows sn0.files)) (streamChanges pks (W.acc.take k) u) ∧
      ∀ o s, W.w.originDurable o = some s →
        ∃ i m, W.acc[i]? = some m ∧ m.origin = o ∧ m.sequence = some s ∧ i < k := by
  obtain ⟨last', h1, h2, h3⟩ := step_lost (dataEnv bytes maxLag maxBytes maxSyncs)
    (run (dataEnv bytes maxLag maxBytes maxSyncs) (World.start log0) ops) last
  have hack' : ∀ op ∈ ops ++ [last'], Outcome.ackLost ∉ op.outs := by
    intro op hop
    rcases List.mem_append.1 hop with h | h
    · exact hack op h
    · simp only [List.mem_singleton] at h; subst h; exact h1
  obtain ⟨W', hW'⟩ : ∃ W', W' = run (dataEnv bytes maxLag maxBytes maxSyncs) (World.start log0) (ops ++ [last']) := ⟨_, rfl⟩
  have hl : W'.log = W.log := by rw [hW, hW', run_snoc, run_snoc, h2]
  have ha : W'.acc = W.acc := by rw [hW, hW', run_snoc, run_snoc, h3]
  have hx := fun u => (C04_exactly_once _ log0 _ W' hW' hack' u).1
  obtain ⟨g1, g2⟩ := C105_files_partial hpk hpf log0 _ W' hW' hack' u (ha ▸ hpl) sn0 sn hb hs (ha ▸ hv) (hl ▸ hf)
  rw [ha] at g2
  refine ⟨doneUpto W' u, ha ▸ doneUpto_le (hx u), g1, g2, ?_⟩
  intro o s hd
  obtain ⟨i, m, k1, k2, k3, k4⟩ := C01_durable_is_committed _ log0 _ o s W hW hd
  exact ⟨i, m, k1, k2, k3, durable_before hl ha hx k1 k4 u⟩

/-- C105 with files (partial).  Two processes with their own limits, requests, failures and tables start from the same
rows, in files of any shape.  If the changes that they have flushed are the same, however they were grouped into messages
and flushes, the tables have the same rows. -/
theorem C105_files_converge_partial (hpk : pks ≠ []) (hpf : ∀ n ∈ pks, n ∈ full) {bytes' : List Row → Nat}
    {maxLag' maxBytes' maxSyncs' : Nat} (log0 log0' : Log Schema (List Row)) (ops ops' : List (Op Schema (List Row)))
    (W W' : World Schema (List Row)) (hW : W = run (dataEnv bytes maxLag maxBytes maxSyncs) (World.start log0) ops)
    (hW' : W' = run (dataEnv bytes' maxLag' maxBytes' maxSyncs') (World.start log0') ops')
    (hack : ∀ op ∈ ops, Outcome.ackLost ∉ op.outs) (hack' : ∀ op ∈ ops', Outcome.ackLost ∉ op.outs) (u u' : Url)
    (hpl : ∀ m ∈ W.acc, m.url = u → PlainMsg pks full m) (hpl' : ∀ m ∈ W'.acc, m.url = u' → PlainMsg pks full m)
    (sn0 sn0' sn sn' : Snapshot) (hb : Keyed pks full (fileRows sn0.files)) (hs : SoundStats sn0) (hs' : SoundStats sn0')
    (hrows : (fileRows sn0'.files).Perm (fileRows sn0.files))
    (hv : ValidSeq full (tableOf pks (fileRows sn0.files)) (streamChanges pks W.acc u))
    (hv' : ValidSeq full (tableOf pks (fileRows sn0'.files)) (streamChanges pks W'.acc u'))
    (hsame : streamChanges pks (W.acc.take (doneUpto W u)) u = streamChanges pks (W'.acc.take (doneUpto W' u')) u')
    (hf : FilesAfter full (newCommits log0 W.log u) sn0 sn) (hf' : FilesAfter full (newCommits log0' W'.log u') sn0' sn') :
    (fileRows sn.files).Perm (fileRows sn'.files) := by
  have hb' := keyed_perm hrows hb
  obtain ⟨h1, h2⟩ := C105_files_partial hpk hpf log0 ops W hW hack u hpl sn0 sn hb hs hv hf
  obtain ⟨h3, h4⟩ := C105_files_partial hpk hpf log0' ops' W' hW' hack' u' hpl' sn0' sn' hb' hs' hv' hf'
  refine perm_of_tableOf h1.nodup h3.nodup ?_
  rw [h2, h4, hsame, tableOf_perm hrows hb'.nodup]

/-- The flushes of the files picked have the effect of the flushes of all rows. -/
theorem filesAfter_flushAll (hpk : pks ≠ []) (hpf : ∀ n ∈ pks, n ∈ full) {cs : List (Commit Schema (List Row))}
    {sn sn' : Snapshot} (h : FilesAfter full cs sn sn') : ∀ {I : Table} {gs : List (List Change)} (base : List TRow),
    GroupsEffect pks full I gs ((dataCommits cs).map (fun c => plannerItems c.items)) →
    Keyed pks full (fileRows sn.files) → Bounded sn → Keyed pks full base →
    tableOf pks base = tableOf pks (fileRows sn.files) →
    ∃ out, flushAll full ((dataCommits cs).map (fun c => plannerItems c.items)) base = some out ∧
      Keyed pks full (fileRows sn'.files) ∧ tableOf pks out = tableOf pks (fileRows sn'.files) := by
  induction h with
  | nil sn =>
    intro I gs base _ hb _ _ hI
    exact ⟨base, rfl, hb, hI⟩
  | other hc _ ih =>
    intro I gs base hg hb hs hb' hI
    simp only [dataCommits, List.filter_cons, hc, Bool.not_true, Bool.false_eq_true, if_false] at hg ⊢
    exact ih base hg hb hs hb' hI
  | @flush c cs sn mid sn' keep out new hc hk ho hp hm hs' _ ih =>
    intro I gs base hg hb hs hb' hI
    simp only [dataCommits, List.filter_cons, hc, Bool.not_false, if_true, List.map_cons] at hg ⊢
    cases hg with
    | @cons _ g _ gs _ N hN hrest =>
      have hflush : flushFiles full (plannerItems c.items) sn = some (fileRows (untouched sn.files keep) ++ out) := by
        simp only [flushFiles, hk, ho]
      obtain ⟨out', h1, h2, h3⟩ := flushFiles_eq hpk hpf sn hs hb _ hN.ok hN.ups hflush
      obtain ⟨out2, h4, h5, h6⟩ := hN.flush _ hb
      rw [h1] at h4
      injection h4 with h4
      subst h4
      obtain ⟨b1, h7, h8, h9⟩ := hN.flush base hb'
      have hperm : (fileRows mid.files).Perm (fileRows (untouched sn.files keep) ++ out) := by
        rw [hm]
        show ((untouched sn.files keep ++ new).flatMap _).Perm _
        rw [List.flatMap_append]
        exact List.Perm.append_left _ hp
      have hkm := keyed_perm hperm h3
      simp only [flushAll, h7]
      refine ih b1 hrest hkm hs' h8 ?_
      rw [tableOf_perm (hperm.trans h2) hkm.nodup, h6, h9, hI]

/-- **C106** with files (partial).  As `C106_restart_partial`: a second process starts with the files that the first one
left (`C105_files_crash_partial` says what is in them), and the client sends again all messages from number `i` on and
then new ones. -/
theorem C106_files_partial (hpk : pks ≠ []) (hpf : ∀ n ∈ pks, n ∈ full) (log1 : Log Schema (List Row))
    (acc1 more : List DMsg) (ops2 : List (Op Schema (List Row))) (W2 : World Schema (List Row)) (u : Url)
    (T0 : Table) (sn1 sn2 : Snapshot) (i k1 : Nat) (hb1 : Keyed pks full (fileRows sn1.files)) (hs1 : SoundStats sn1)
    (ht1 : tableOf pks (fileRows sn1.files) = replay full T0 (streamChanges pks (acc1.take k1) u)) (hi : i ≤ k1)
    (hW2 : W2 = run (dataEnv bytes maxLag maxBytes maxSyncs) (World.start log1) ops2)
    (hack2 : ∀ op ∈ ops2, Outcome.ackLost ∉ op.outs) (hacc2 : W2.acc = acc1.drop i ++ more)
    (hk : k1 ≤ i + doneUpto W2 u)
    (hpl : ∀ m ∈ acc1 ++ more, m.url = u → PlainMsg pks full m)
    (hv : ValidSeq full T0 (streamChanges pks (acc1 ++ more) u))
    (hf : FilesAfter full (newCommits log1 W2.log u) sn1 sn2) :
    Keyed pks full (fileRows sn2.files) ∧
      (tableOf pks (fileRows sn2.files) = replay full T0
          (streamChanges pks (acc1.take i ++ W2.acc.take (doneUpto W2 u)) u) ↔
        ∀ k, (tableOf pks (fileRows sn1.files) k).isSome →
          ∃ B ∈ boundaries full (replay full T0 (streamChanges pks (acc1.take i) u))
              (commitChanges pks W2.acc (newCommits log1 W2.log u)), (B k).isSome) := by
  have hsplit : streamChanges pks (acc1 ++ more) u = streamChanges pks (acc1.take i) u ++ streamChanges pks W2.acc u := by
    rw [hacc2, ← streamChanges_append, ← List.append_assoc, List.take_append_drop]
  rw [hsplit] at hv
  have hv' := (validSeq_append.1 hv).2
  have hpl2 : ∀ m ∈ W2.acc, m.url = u → PlainMsg pks full m := by
    intro m hm
    rw [hacc2] at hm
    rcases List.mem_append.1 hm with h | h
    · exact hpl m (List.mem_append_left _ (List.mem_of_mem_drop h))
    · exact hpl m (List.mem_append_right _ h)
  obtain ⟨h1, h2⟩ := life_effect hpk hpf hW2 hack2 hpl2 hv'
  have htake : acc1.take k1 = acc1.take i ++ (acc1.drop i).take (k1 - i) := by
    have := List.take_add (l := acc1) (i := i) (j := k1 - i)
    rwa [Nat.add_sub_cancel' hi] at this
  have hbase : tableOf pks (fileRows sn1.files) = replay full (replay full T0 (streamChanges pks (acc1.take i) u))
      (streamChanges pks ((acc1.drop i).take (k1 - i)) u) := by
    rw [ht1, htake, streamChanges_append, replay_append]
  have hp : streamChanges pks ((acc1.drop i).take (k1 - i)) u <+:
      (commitChanges pks W2.acc (newCommits log1 W2.log u)).flatten := by
    rw [h2]
    obtain ⟨t, ht⟩ := take_prefix_take (x := acc1.drop i) (y := more) (a := k1 - i) (b := doneUpto W2 u) (by omega)
    rw [← hacc2] at ht
    rw [← ht, streamChanges_append]
    exact List.prefix_append _ _
  obtain ⟨out, g1, g2, g3⟩ := h1.resend (by rw [h2]; exact stream_prefix_valid _ hv') _ hb1 _ hp hbase
  obtain ⟨out', g4, g5, g6⟩ := filesAfter_flushAll hpk hpf hf _ h1 hb1 hs1 hb1 rfl
  rw [g1] at g4
  injection g4 with g4
  subst g4
  refine ⟨g5, ?_⟩
  rw [← g6, streamChanges_append, replay_append, ← h2]
  exact g3

/-- No flush fails, unless all keys in it are NULL (C21): there are files after the commits. -/
theorem filesAfter_exists (hpk : pks ≠ []) (hpf : ∀ n ∈ pks, n ∈ full) : ∀ (cs : List (Commit Schema (List Row)))
    {I : Table} {gs : List (List Change)} (sn : Snapshot),
    GroupsEffect pks full I gs ((dataCommits cs).map (fun c => plannerItems c.items)) →
    (∀ c ∈ cs, c.items.isEmpty = false → ¬ NoKeys pks (plannerItems c.items)) →
    Keyed pks full (fileRows sn.files) → Bounded sn → ∃ sn', FilesAfter full cs sn sn'
  | [], _, _, sn, _, _, _, _ => ⟨sn, .nil sn⟩
  | c :: cs, I, gs, sn, hg, hn, hb, hs => by
    cases hc : c.items.isEmpty with
    | true =>
      simp only [dataCommits, List.filter_cons, hc, Bool.not_true, Bool.false_eq_true, if_false] at hg
      obtain ⟨sn', h⟩ := filesAfter_exists hpk hpf cs sn hg (fun c' h' => hn c' (by simp [h'])) hb hs
      exact ⟨sn', .other hc h⟩
    | false =>
      simp only [dataCommits, List.filter_cons, hc, Bool.not_false, if_true, List.map_cons] at hg
      cases hg with
      | @cons _ g _ gs _ N hN hrest =>
        have hne : plannerItems c.items ≠ [] := by
          intro h
          simp only [plannerItems, List.map_eq_nil_iff] at h
          rw [h] at hc; cases hc
        have hsome : flushFiles full (plannerItems c.items) sn ≠ none := fun h0 =>
          hn c (by simp) hc ((C21_flush_fails_iff_partial hpk _ hne hN.ok sn).1 h0)
        obtain ⟨all, hall⟩ := Option.ne_none_iff_exists'.1 hsome
        obtain ⟨out', h1, h2, h3⟩ := flushFiles_eq hpk hpf sn hs hb _ hN.ok hN.ups hall
        simp only [flushFiles] at hall
        cases hk : prunePartitions sn (plannerItems c.items) with
        | none => rw [hk] at hall; cases hall
        | some keep =>
          rw [hk] at hall
          simp only at hall
          cases ho : flushRows full (plannerItems c.items) (fileRows (touched sn.files keep)) with
          | none => rw [ho] at hall; cases hall
          | some out =>
            rw [ho] at hall
            injection hall with hall
            subst hall
            -- the new rows in one file without statistics
            let f : DFile := { rows := out, min := fun _ => none, max := fun _ => none, records := none }
            let mid : Snapshot := { sn with files := untouched sn.files keep ++ [f] }
            have hmid : Bounded mid := by
              intro f' hf'
              rcases List.mem_append.1 hf' with hm | hm
              · obtain ⟨p, hp, rfl⟩ := List.mem_map.1 hm
                exact hs p.1 (List.of_mem_zip (List.mem_filter.1 hp).1).1
              · simp only [List.mem_singleton] at hm
                subst hm
                intro r _ c v _
                exact ⟨fun m hm => (by cases hm), fun m hm => (by cases hm)⟩
            have hrows : fileRows mid.files = fileRows (untouched sn.files keep) ++ out := by
              show (untouched sn.files keep ++ [f]).flatMap _ = _
              rw [List.flatMap_append]
              simp [f, fileRows]
            obtain ⟨sn', h⟩ := filesAfter_exists hpk hpf cs mid hrest (fun c' h' => hn c' (by simp [h']))
              (by rw [hrows]; exact h3) hmid
            exact ⟨sn', .flush (new := [f]) hc hk ho (by simp [f, fileRows]) rfl hmid h⟩

/-- C105 with files.  If no flush consists of NULL keys only (C21), every flush succeeds: there are files after the
commits, and `C105_files_partial` says what is in them. -/
theorem C105_files_exist (hpk : pks ≠ []) (hpf : ∀ n ∈ pks, n ∈ full) (log0 : Log Schema (List Row))
    (ops : List (Op Schema (List Row))) (W : World Schema (List Row))
    (hW : W = run (dataEnv bytes maxLag maxBytes maxSyncs) (World.start log0) ops)
    (hack : ∀ op ∈ ops, Outcome.ackLost ∉ op.outs) (u : Url) (hpl : ∀ m ∈ W.acc, m.url = u → PlainMsg pks full m)
    (sn0 : Snapshot) (hb : Keyed pks full (fileRows sn0.files)) (hs : SoundStats sn0)
    (hv : ValidSeq full (tableOf pks (fileRows sn0.files)) (streamChanges pks W.acc u))
    (hn : ∀ c ∈ newCommits log0 W.log u, c.items.isEmpty = false → ¬ NoKeys pks (plannerItems c.items)) :
    ∃ sn, FilesAfter full (newCommits log0 W.log u) sn0 sn :=
  filesAfter_exists hpk hpf _ sn0 (life_effect hpk hpf hW hack hpl hv).1 hn hb hs

/-! ### a concrete case -/

namespace FhDemo
open SqDemo RsDemo EeDemo

/-- Both messages are flushed one by one, after the commit that creates the table. -/
def ops3 : List (Op Schema (List Row)) :=
  [.sync (msg 1 ins) 0 true [], .sync (msg 2 del) 1 true [], .tick 12 true []]

def W3 : World Schema (List Row) := run env1 (World.start fun _ => []) ops3

def trow2 (id v : Int) : TRow := trow [("id", i id), ("v", i v)]

/-- A file with one row. -/
def file (id v : Int) : DFile :=
  { rows := [trow2 id v], min := trow [("id", i id)], max := trow [("id", i id)], records := some 1 }

/-- A table of two files. -/
def sn0 : Snapshot := ⟨[file 1 10, file 50 500], fun _ => true, fun _ => true⟩

theorem file_bounded (id v : Int) : ∀ r ∈ (file id v).rows, ∀ c w, r c = some w →
    (∀ m, (file id v).min c = some m → m.le w = true) ∧ (∀ m, (file id v).max c = some m → w.le m = true) := by
  intro r hr c w hw
  simp only [file, List.mem_singleton] at hr
  subst hr
  by_cases hc : c = "id"
  · subst hc
    have h1 : trow2 id v "id" = i id := rfl
    rw [h1] at hw
    injection hw with hw
    subst hw
    have h2 : (file id v).min "id" = i id := rfl
    have h3 : (file id v).max "id" = i id := rfl
    rw [h2, h3]
    constructor <;> intro m hm <;> (injection hm with hm; subst hm; exact Val.le_refl _)
  · have h1 : (c == "id") = false := by simpa using hc
    constructor <;> intro m hm <;> simp [file, trow, List.lookup, h1] at hm

theorem bounded {fs : List (Int × Int)} {a b : String → Bool} : Bounded ⟨fs.map (fun p => file p.1 p.2), a, b⟩ := by
  intro f hf
  obtain ⟨p, _, rfl⟩ := List.mem_map.1 hf
  exact file_bounded p.1 p.2

theorem keyed0 : Keyed ["id"] ["id", "v"] (fileRows sn0.files) := by
  refine ⟨by decide, ?_, ?_⟩
  · intro x hx n hn
    simp only [fileRows, sn0, file, List.flatMap_cons, List.flatMap_nil, List.cons_append, List.nil_append,
      List.mem_cons, List.not_mem_nil, or_false] at hx
    simp only [List.mem_cons, List.not_mem_nil, or_false] at hn
    subst hn
    rcases hx with rfl | rfl <;> decide
  · intro x hx c hc
    simp only [List.mem_cons, List.not_mem_nil, or_false, not_or] at hc
    simp only [fileRows, sn0, file, List.flatMap_cons, List.flatMap_nil, List.cons_append, List.nil_append,
      List.mem_cons, List.not_mem_nil, or_false] at hx
    have h1 : ∀ x : String, ¬ c = x → (c == x) = false := fun x h => by simpa using h
    rcases hx with rfl | rfl <;> simp [trow2, trow, List.lookup, h1 _ hc.1, h1 _ hc.2]

theorem valid3 : ValidSeq ["id", "v"] (tableOf ["id"] (fileRows sn0.files)) (streamChanges ["id"] W3.acc "t") := by
  show ValidSeq _ _ (groupChanges ["id"] [[(S3, ins ++ del)]]).flatten
  simp only [groupChanges, allChanges, itemChanges, ins, del, List.flatMap_cons, List.flatMap_nil, List.map_cons,
    List.map_nil, List.flatten_cons, List.flatten_nil, List.cons_append, List.nil_append, List.append_nil, ValidSeq]
  refine ⟨valid1_of ?_ ?_, valid1_of ?_ ?_, valid1_of ?_ ?_, trivial⟩ <;> decide

theorem plain3 : ∀ m ∈ W3.acc, m.url = "t" → PlainMsg ["id"] ["id", "v"] m := by
  intro m hm _
  have hacc : W3.acc = [msg 1 ins, msg 2 del] := rfl
  rw [hacc] at hm
  simp only [List.mem_cons, List.not_mem_nil, or_false] at hm
  rcases hm with rfl | rfl
  · exact plain 1 _ (Or.inl rfl)
  · exact plain 2 _ (Or.inr rfl)

theorem noKeys3 : ∀ c ∈ newCommits (fun _ => []) W3.log "t", c.items.isEmpty = false →
    ¬ NoKeys ["id"] (plannerItems c.items) := by
  have h : ((newCommits (fun _ => []) W3.log "t").all (fun c => c.items.isEmpty || (plannerItems c.items).any (fun it =>
      it.2.any (fun r => (r ⟨.oldPk, "id"⟩).isSome || (r ⟨.newPk, "id"⟩).isSome)))) = true := by decide +kernel
  intro c hc hi hno
  have h1 := List.all_eq_true.1 h c hc
  simp only [hi, Bool.false_or, List.any_eq_true] at h1
  obtain ⟨it, hit, r, hr, h2⟩ := h1
  obtain ⟨e1, e2⟩ := hno it hit r hr "id" (by simp)
  rw [e1, e2] at h2
  cases h2

/-- The first flush, of the rows 1 and 3, leaves the file with row 50 alone. -/
example : (newCommits (fun _ => []) W3.log "t").map (fun c => prunePartitions sn0 (plannerItems c.items)) =
    [none, some [true, false], some [false, false]] := by decide +kernel

/-- The hypotheses hold, and the result is not trivial. -/
example : ∃ sn, FilesAfter ["id", "v"] (newCommits (fun _ => []) W3.log "t") sn0 sn ∧
    (∀ n : Int, (tableOf ["id"] (fileRows sn.files) [i n]).map (· "v") =
      (replay ["id", "v"] (tableOf ["id"] (fileRows sn0.files)) (streamChanges ["id"] W3.acc "t") [i n]).map (· "v")) ∧
    [1, 3, 50].map (fun n => (tableOf ["id"] (fileRows sn.files) [i n]).map (· "v")) = [some (i 11), none, some (i 500)] := by
  have hack : ∀ op ∈ ops3, Outcome.ackLost ∉ op.outs := by decide
  obtain ⟨sn, h⟩ := C105_files_exist (pks := ["id"]) (by decide) (by decide) (fun _ => []) ops3 W3 rfl hack "t" plain3 sn0
    keyed0 (bounded (fs := [(1, 10), (50, 500)])) valid3 noKeys3
  have h2 := (C105_files_partial (by decide) (by decide) (fun _ => []) ops3 W3 rfl hack "t" plain3 sn0 sn
    keyed0 (bounded (fs := [(1, 10), (50, 500)])) valid3 h).2
  have hd : doneUpto W3 "t" = W3.acc.length := by decide +kernel
  rw [hd, List.take_length] at h2
  refine ⟨sn, h, fun n => by rw [h2], ?_⟩
  simp only [h2]
  decide +kernel

/-- A second process after `W1`, which flushed the first message only: both messages are sent again, and flushed one
by one. -/
def W4 : World Schema (List Row) := run env1 (World.start W1.log) ops3

theorem noKeys_of {cs : List (Commit Schema (List Row))} (h : (cs.all (fun c => c.items.isEmpty ||
    (plannerItems c.items).any (fun it => it.2.any (fun r => (r ⟨.oldPk, "id"⟩).isSome || (r ⟨.newPk, "id"⟩).isSome)))) = true) :
    ∀ c ∈ cs, c.items.isEmpty = false → ¬ NoKeys ["id"] (plannerItems c.items) := by
  intro c hc hi hno
  have h1 := List.all_eq_true.1 h c hc
  simp only [hi, Bool.false_or, List.any_eq_true] at h1
  obtain ⟨it, hit, r, hr, h2⟩ := h1
  obtain ⟨e1, e2⟩ := hno it hit r hr "id" (by simp)
  rw [e1, e2] at h2
  cases h2

/-- The hypotheses of `C106_files_partial` hold. -/
example : ∃ sn1 sn2, FilesAfter ["id", "v"] (newCommits (fun _ => []) W1.log "t") sn0 sn1 ∧
    FilesAfter ["id", "v"] (newCommits W1.log W4.log "t") sn1 sn2 ∧
    (tableOf ["id"] (fileRows sn2.files) = replay ["id", "v"] (tableOf ["id"] (fileRows sn0.files))
        (streamChanges ["id"] W3.acc "t") ↔
      ∀ k, (tableOf ["id"] (fileRows sn1.files) k).isSome →
        ∃ B ∈ boundaries ["id", "v"] (tableOf ["id"] (fileRows sn0.files))
          (commitChanges ["id"] W4.acc (newCommits W1.log W4.log "t")), (B k).isSome) := by
  have hs0 : SoundStats sn0 := bounded (fs := [(1, 10), (50, 500)])
  have hack1 : ∀ op ∈ ops1, Outcome.ackLost ∉ op.outs := by decide
  have hack3 : ∀ op ∈ ops3, Outcome.ackLost ∉ op.outs := by decide
  obtain ⟨sn1, hf1⟩ := C105_files_exist (pks := ["id"]) (by decide) (by decide) (fun _ => []) ops1 W1 rfl hack1 "t" plain3 sn0
    keyed0 hs0 valid3 (noKeys_of (by decide +kernel))
  obtain ⟨hb1, ht1⟩ := C105_files_partial (by decide) (by decide) (fun _ => []) ops1 W1 rfl hack1 "t" plain3 sn0 sn1
    keyed0 hs0 valid3 hf1
  have hs1 : SoundStats sn1 := by
    obtain ⟨h1, h2⟩ := life_effect (pks := ["id"]) (by decide) (by decide) (rfl : W1 = run env5 (World.start fun _ => []) ops1)
      hack1 (u := "t") plain3 valid3
    exact (filesAfter_effect (by decide) (by decide) hf1 h1 (by rw [h2]; exact stream_prefix_valid _ valid3) keyed0 hs0 rfl).2.1
  have hd1 : doneUpto W1 "t" = 1 := by decide +kernel
  rw [hd1] at ht1
  obtain ⟨sn2, hf2⟩ := filesAfter_exists (pks := ["id"]) (full := ["id", "v"]) (by decide) (by decide)
    (newCommits W1.log W4.log "t") sn1
    (life_effect (by decide) (by decide) (rfl : W4 = run env1 (World.start W1.log) ops3) hack3 plain3 valid3).1
    (noKeys_of (by decide +kernel)) hb1 hs1
  have h := (C106_files_partial (by decide) (by decide) W1.log W1.acc [] ops3 W4 "t" _ sn1 sn2 0 1 hb1 hs1 ht1 (by decide) rfl
    hack3 rfl (by decide +kernel) (by rw [List.append_nil]; exact plain3) (by rw [List.append_nil]; exact valid3) hf2).2
  have hd : doneUpto W4 "t" = W4.acc.length := by decide +kernel
  rw [hd, List.take_length] at h
  exact ⟨sn1, sn2, hf1, hf2, h⟩

/-- Both rows in one file without statistics. -/
def sn0' : Snapshot :=
  ⟨[{ rows := [trow2 50 500, trow2 1 10], min := fun _ => none, max := fun _ => none, records := none }],
    fun _ => true, fun _ => true⟩

theorem stats0' : SoundStats sn0' := by
  intro f hf r _ c v _
  simp only [sn0', List.mem_singleton] at hf
  subst hf
  exact ⟨fun m hm => (by cases hm), fun m hm => (by cases hm)⟩

theorem rows0' : (fileRows sn0'.files).Perm (fileRows sn0.files) := List.Perm.swap _ _ _

/-- A process that flushes both messages at once. -/
def ops6 : List (Op Schema (List Row)) :=
  [.sync (msg 1 ins) 0 true [], .sync (msg 2 del) 1 true [], .tick 1000 true []]

def W6 : World Schema (List Row) := run env5 (World.start fun _ => []) ops6

/-- The flushes of `W3` and `W6` differ. -/
example : ((newCommits (fun _ => []) W3.log "t").map (fun c => c.items.length),
    (newCommits (fun _ => []) W6.log "t").map (fun c => c.items.length)) = ([0, 1, 1], [0, 1]) := by decide +kernel

/-- The hypotheses of `C105_files_converge_partial` hold. -/
example : ∃ sn sn', FilesAfter ["id", "v"] (newCommits (fun _ => []) W3.log "t") sn0 sn ∧
    FilesAfter ["id", "v"] (newCommits (fun _ => []) W6.log "t") sn0' sn' ∧
    (fileRows sn.files).Perm (fileRows sn'.files) := by
  have hs0 : SoundStats sn0 := bounded (fs := [(1, 10), (50, 500)])
  have hack3 : ∀ op ∈ ops3, Outcome.ackLost ∉ op.outs := by decide
  have hack6 : ∀ op ∈ ops6, Outcome.ackLost ∉ op.outs := by decide
  have hb' := keyed_perm rows0' keyed0
  have hv' : ValidSeq ["id", "v"] (tableOf ["id"] (fileRows sn0'.files)) (streamChanges ["id"] W6.acc "t") := by
    rw [tableOf_perm rows0' hb'.nodup]
    exact valid3
  obtain ⟨sn, h⟩ := C105_files_exist (pks := ["id"]) (by decide) (by decide) (fun _ => []) ops3 W3 rfl hack3 "t" plain3 sn0
    keyed0 hs0 valid3 (noKeys_of (by decide +kernel))
  obtain ⟨sn', h'⟩ := C105_files_exist (pks := ["id"]) (by decide) (by decide) (fun _ => []) ops6 W6 rfl hack6 "t" plain3 sn0'
    hb' stats0' hv' (noKeys_of (by decide +kernel))
  have hd : doneUpto W3 "t" = W3.acc.length := by decide +kernel
  have hd' : doneUpto W6 "t" = W6.acc.length := by decide +kernel
  refine ⟨sn, sn', h, h', C105_files_converge_partial (by decide) (by decide) _ _ ops3 ops6 W3 W6 rfl rfl hack3 hack6 "t" "t"
    plain3 plain3 sn0 sn0' sn sn' keyed0 hs0 stats0' rows0' valid3 hv' ?_ h h'⟩
  rw [hd, hd', List.take_length, List.take_length]
  rfl

end FhDemo

end Seafowl.Sync
