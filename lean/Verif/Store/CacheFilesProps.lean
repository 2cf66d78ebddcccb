import Verif.Store.CacheFiles

/-!
# C109: the files of the cache

The cache directory holds complete copies of chunks, and only those the cache has entries for, so that
its size is bounded by the capacity.  Proved for every interleaving of readers, write tasks, evictions and
removals without failures (`C109_accounted_partial`, `C109_quiet_partial`, `C109_bound_partial`,
`C109_capacity_partial`).  What a reader gets is complete if write tasks of one chunk do not overlap and
no write fails half way (`C109_reader_partial`).  Both conditions are needed: a write that fails half way
leaves a file that later is taken for a complete one (`C109_violated_failed_write`).
-/
namespace Seafowl.Store.Files

/-! ### specification -/

/-- Every step of the run is of a kind that is looked at. -/
def Along (ok : Chunk → Step → Prop) : Chunk → List Step → Prop
  | _, [] => True
  | s, x :: xs => ok s x ∧ Along ok (step s x) xs

/-- The object does not change: all readers that cache the chunk cache `d`. -/
def SameData (d : List Nat) : Step → Prop
  | .cache data => data = d
  | _ => True

/-- A write fails only when creating the file. -/
def NoTornWrite (s : Chunk) : Step → Prop
  | .writeErr i => ∀ t, s.tasks[i]? = some t → t.phase = .absent ∨ t.phase = .start ∨ t.phase = .written
  | _ => True

/-- Files can be removed. -/
def Removes : Step → Prop
  | .deleteErr => False
  | _ => True

/-- The chunk is not cached again while a task still writes it. -/
def NoOverlap (s : Chunk) : Step → Prop
  | .cache _ => s.entry = none → s.tasks = []
  | _ => True

/-- Neither a write task nor a removal is under way. -/
def Quiet (s : Chunk) : Prop := s.tasks = [] ∧ s.dels = 0

instance (s : Chunk) : Decidable (Quiet s) := by unfold Quiet; infer_instance

/-- The task is past opening the file. -/
def Holds (t : Task) : Prop := t.phase = .written ∨ ∃ ino off, t.phase = .writing ino off

def IsFile : Option Entry → Prop
  | some (.file _) => True
  | _ => False

instance (e : Option Entry) : Decidable (IsFile e) := by
  unfold IsFile; split <;> infer_instance

/-! ### runs -/

theorem along_inv {ok : Chunk → Step → Prop} {I : Chunk → Prop}
    (hstep : ∀ s x, I s → ok s x → I (step s x)) :
    ∀ (l : List Step) (s : Chunk), I s → Along ok s l → I (steps s l)
  | [], _, h, _ => h
  | x :: xs, s, h, ha => along_inv hstep xs (step s x) (hstep s x h ha.1) ha.2

theorem Along.mono {ok ok' : Chunk → Step → Prop} (h : ∀ s x, ok s x → ok' s x) :
    ∀ {l : List Step} {s : Chunk}, Along ok s l → Along ok' s l
  | [], _, _ => trivial
  | _ :: _, _, ha => ⟨h _ _ ha.1, Along.mono h ha.2⟩

theorem pendingDelete_pos {e : Option Entry} (h : IsFile e) : pendingDelete e = 1 := by
  unfold IsFile at h; split at h <;> simp_all [pendingDelete]

/-! ### every file is accounted for -/

/-- A file has an entry, or a removal or a write task is under way. -/
def Accounted (s : Chunk) : Prop :=
  s.link.isSome → IsFile s.entry ∨ 0 < s.dels ∨ ∃ t ∈ s.tasks, Holds t

theorem mem_set_of_ne {l : List Task} {i : Nat} {t t' u : Task} (hi : l[i]? = some t) (hu : u ∈ l)
    (hne : u ≠ t) : u ∈ l.set i t' := by
  obtain ⟨j, hj⟩ := List.getElem?_of_mem hu
  have hij : i ≠ j := fun e => by
    subst e; rw [hi] at hj; exact hne (Option.some.inj hj).symm
  exact List.mem_of_getElem? (i := j) (by rw [List.getElem?_set_ne hij]; exact hj)

theorem mem_set_self {l : List Task} {i : Nat} {t t' : Task} (hi : l[i]? = some t) :
    t' ∈ l.set i t' := by
  have : i < l.length := (List.getElem?_eq_some_iff.1 hi).1
  exact List.mem_of_getElem? (i := i) (by simp [this])

theorem mem_erase_of_ne {l : List Task} {i : Nat} {t u : Task} (hi : l[i]? = some t) (hu : u ∈ l)
    (hne : u ≠ t) : u ∈ l.eraseIdx i := by
  obtain ⟨j, hj⟩ := List.getElem?_of_mem hu
  refine List.mem_eraseIdx_iff_getElem?.2 ⟨j, fun e => ?_, hj⟩
  subst e; rw [hi] at hj; exact hne (Option.some.inj hj).symm

theorem accounted_step (s : Chunk) (x : Step) (h : Accounted s) (ht : NoTornWrite s x) (hr : Removes x) :
    Accounted (step s x) := by
  cases x with
  | cache data =>
    simp only [step, cacheStep]
    split
    · next he =>
      intro hl
      rcases h hl with h1 | h1 | ⟨t, h1, h2⟩
      · rw [he] at h1; exact h1.elim
      · exact .inr (.inl h1)
      · exact .inr (.inr ⟨t, by simp [h1], h2⟩)
    · exact h
  | check i =>
    simp only [step, withTask]
    split
    · next t hi =>
      simp only [checkStep]
      split
      · next hp =>
        intro hl
        rcases h hl with h1 | h1 | ⟨u, h1, h2⟩
        · exact .inl h1
        · exact .inr (.inl h1)
        · refine .inr (.inr ⟨u, mem_set_of_ne hi h1 ?_, h2⟩)
          rintro rfl
          rcases h2 with h2 | ⟨_, _, h2⟩ <;> rw [hp] at h2 <;> cases h2
      · exact h
    · exact h
  | openFile i =>
    simp only [step, withTask]
    split
    · next t hi =>
      simp only [openStep]
      split
      · split
        · intro _; exact .inr (.inr ⟨_, mem_set_self hi, .inr ⟨_, _, rfl⟩⟩)
        · intro _; exact .inr (.inr ⟨_, mem_set_self hi, .inr ⟨_, _, rfl⟩⟩)
      · exact h
    · exact h
  | put i n =>
    simp only [step, withTask]
    split
    · next t hi =>
      simp only [putStep]
      split
      · intro _; exact .inr (.inr ⟨_, mem_set_self hi, .inr ⟨_, _, rfl⟩⟩)
      · exact h
    · exact h
  | close i =>
    simp only [step, withTask]
    split
    · next t hi =>
      simp only [closeStep]
      split
      · split
        · intro _; exact .inr (.inr ⟨_, mem_set_self hi, .inl rfl⟩)
        · exact h
      · exact h
    · exact h
  | publish i =>
    simp only [step, withTask]
    split
    · next t hi =>
      simp only [publishStep]
      split
      · intro _; exact .inl trivial
      · exact h
    · exact h
  | writeErr i =>
    simp only [step, withTask]
    split
    · next t hi =>
      have hph := ht t hi
      simp only [writeErrStep]
      have key : t.phase = .absent → Accounted { s with entry := none, tasks := s.tasks.eraseIdx i, dels := s.dels + pendingDelete s.entry } := by
        intro hp hl
        rcases h hl with h1 | h1 | ⟨u, h1, h2⟩
        · exact .inr (.inl (by simp only [pendingDelete_pos h1]; omega))
        · exact .inr (.inl (by simp only; omega))
        · refine .inr (.inr ⟨u, mem_erase_of_ne hi h1 ?_, h2⟩)
          rintro rfl
          rcases h2 with h2 | ⟨_, _, h2⟩ <;> rw [hp] at h2 <;> cases h2
      split
      · next hp => exact key hp
      · next hp => rcases hph with hp' | hp' | hp' <;> rw [hp] at hp' <;> cases hp'
      · exact h
    · exact h
  | evict =>
    intro hl
    rcases h hl with h1 | h1 | h1
    · exact .inr (.inl (by simp only [step, pendingDelete_pos h1]; omega))
    · exact .inr (.inl (by simp only [step]; omega))
    · exact .inr (.inr h1)
  | delete =>
    simp only [step]
    split
    · exact h
    · intro hl; simp at hl
  | deleteErr => exact hr.elim

/-! ### contents -/

/-- The first `o` bytes are those of the chunk. -/
def Agree (c : List Nat) (o : Nat) (d : List Nat) : Prop := ∀ k, k < o → c[k]? = d[k]?

theorem writeAt_length (c : List Nat) (off : Nat) (bs : List Nat) :
    (writeAt c off bs).length = max c.length (off + bs.length) := by
  simp only [writeAt, List.length_append, List.length_take, List.length_replicate, List.length_drop]
  omega

theorem writeAt_old {c : List Nat} {off : Nat} {bs : List Nat} {k : Nat} (hk : k < c.length)
    (h : k < off ∨ off + bs.length ≤ k) : (writeAt c off bs)[k]? = c[k]? := by
  simp only [writeAt]
  have hl : ((c ++ List.replicate (off - c.length) 0).take off).length = off := by
    simp only [List.length_take, List.length_append, List.length_replicate]; omega
  rcases h with h | h
  · rw [List.append_assoc, List.getElem?_append_left (by omega), List.getElem?_take_of_lt h,
      List.getElem?_append_left hk]
  · rw [List.getElem?_append_right (by simp only [List.length_append]; omega), List.getElem?_drop]
    congr 1
    simp only [List.length_append]; omega

theorem writeAt_new {c : List Nat} {off : Nat} {bs : List Nat} {k : Nat} (h1 : off ≤ k)
    (h2 : k < off + bs.length) : (writeAt c off bs)[k]? = bs[k - off]? := by
  simp only [writeAt]
  have hl : ((c ++ List.replicate (off - c.length) 0).take off).length = off := by
    simp only [List.length_take, List.length_append, List.length_replicate]; omega
  rw [List.append_assoc, List.getElem?_append_right (by omega), hl, List.getElem?_append_left (by omega)]

theorem agree_full {c d : List Nat} (h : Agree c d.length d) (hl : c.length ≤ d.length) : c = d := by
  apply List.ext_getElem?
  intro k
  by_cases hk : k < d.length
  · exact h k hk
  · rw [List.getElem?_eq_none (by omega), List.getElem?_eq_none (by omega)]

theorem agree_len {c d : List Nat} {o : Nat} (h : Agree c o d) (ho : o ≤ d.length) : o ≤ c.length := by
  apply Classical.byContradiction
  intro hc
  have := h (o - 1) (by omega)
  rw [List.getElem?_eq_none (by omega), List.getElem?_eq_getElem (by omega)] at this
  cases this

/-- Bytes from `d` written where they belong keep what is right, and add to it. -/
theorem agree_write {c d : List Nat} {o off n : Nat} (h : Agree c o d) (ho : o ≤ d.length) :
    Agree (writeAt c off ((d.drop off).take n)) o d := by
  intro k hk
  have hcl := agree_len h ho
  by_cases hin : off ≤ k ∧ k < off + ((d.drop off).take n).length
  · rw [writeAt_new hin.1 hin.2]
    have hb := hin.2
    simp only [List.length_take, List.length_drop] at hb
    rw [List.getElem?_take_of_lt (by omega), List.getElem?_drop]
    congr 1; omega
  · rw [writeAt_old (by omega) (by omega)]
    exact h k hk

theorem agree_extend {c d : List Nat} {off n : Nat} (h : Agree c off d) (ho : off ≤ d.length) :
    Agree (writeAt c off ((d.drop off).take n)) (off + ((d.drop off).take n).length) d := by
  intro k hk
  by_cases hin : off ≤ k
  · rw [writeAt_new hin hk]
    simp only [List.length_take, List.length_drop] at hk
    rw [List.getElem?_take_of_lt (by omega), List.getElem?_drop]
    congr 1; omega
  · exact agree_write h ho k (by omega)

/-- An inode that is complete, or on which a task is at work that has got as far as it is. -/
def InoOk (d : List Nat) (tasks : List Task) (ino : Nat) (c : List Nat) : Prop :=
  c.length ≤ d.length ∧ ∃ o, o ≤ d.length ∧ Agree c o d ∧
    (o = d.length ∨ ∃ t ∈ tasks, t.phase = .writing ino o)

structure Good (d : List Nat) (s : Chunk) : Prop where
  data : ∀ t ∈ s.tasks, t.data = d
  inos : ∀ t ∈ s.tasks, ∀ ino off, t.phase = .writing ino off → ino < s.inodes.length ∧ off ≤ d.length
  link : ∀ ino, s.link = some ino → ino < s.inodes.length
  mem : ∀ x, s.entry = some (.mem x) → x = d
  size : ∀ n, s.entry = some (.file n) → n = d.length
  content : ∀ ino, ino < s.inodes.length → InoOk d s.tasks ino (s.content ino)

theorem good_empty (d : List Nat) : Good d Chunk.empty where
  data := by simp [Chunk.empty]
  inos := by simp [Chunk.empty]
  link := by simp [Chunk.empty]
  mem := by simp [Chunk.empty]
  size := by simp [Chunk.empty]
  content := by simp [Chunk.empty]

theorem InoOk.mono {d : List Nat} {ts ts' : List Task} {ino : Nat} {c : List Nat}
    (h : InoOk d ts ino c) (hm : ∀ t ∈ ts, ∀ o, t.phase = .writing ino o → o < d.length → t ∈ ts') :
    InoOk d ts' ino c := by
  obtain ⟨h1, o, h2, h3, h4⟩ := h
  refine ⟨h1, o, h2, h3, ?_⟩
  by_cases ho : o = d.length
  · exact .inl ho
  · rcases h4 with h4 | ⟨t, h4, h5⟩
    · exact .inl h4
    · exact .inr ⟨t, hm t h4 o h5 (by omega), h5⟩

/-- Removing a task that is not in the middle of writing. -/
theorem good_erase {d : List Nat} {s : Chunk} (h : Good d s) {i : Nat} {t : Task}
    (hi : s.tasks[i]? = some t) (hp : ∀ ino off, t.phase ≠ .writing ino off) (e : Option Entry)
    (hm : ∀ x, e = some (.mem x) → x = d) (hz : ∀ n, e = some (.file n) → n = d.length) (k : Nat) :
    Good d { s with entry := e, tasks := s.tasks.eraseIdx i, dels := k } where
  data u hu := h.data u (List.mem_of_mem_eraseIdx hu)
  inos u hu := h.inos u (List.mem_of_mem_eraseIdx hu)
  link := h.link
  mem := hm
  size := hz
  content ino hino := (h.content ino hino).mono fun u hu o hpo _ =>
    mem_erase_of_ne hi hu (by rintro rfl; exact hp _ _ hpo)

/-- Changing the phase of a task that is not in the middle of writing to one that is not either, or
finishing it. -/
theorem good_set {d : List Nat} {s : Chunk} (h : Good d s) {i : Nat} {t : Task}
    (hi : s.tasks[i]? = some t)
    (hp : ∀ ino off, t.phase = .writing ino off → off = d.length) (p : Phase)
    (hp' : ∀ ino off, p ≠ .writing ino off) :
    Good d { s with tasks := s.tasks.set i { t with phase := p } } where
  data u hu := by
    rcases List.mem_or_eq_of_mem_set hu with h1 | h1
    · exact h.data u h1
    · subst h1; exact h.data t (List.mem_of_getElem? hi)
  inos u hu ino off hq := by
    rcases List.mem_or_eq_of_mem_set hu with h1 | h1
    · exact h.inos u h1 ino off hq
    · subst h1; exact absurd hq (hp' ino off)
  link := h.link
  mem := h.mem
  size := h.size
  content ino hino := (h.content ino hino).mono fun u hu o hpo ho =>
    mem_set_of_ne hi hu (by rintro rfl; have := hp _ _ hpo; omega)

theorem content_set (s : Chunk) (l : List (List Nat)) (hl : s.inodes = l) (ino : Nat) (c : List Nat)
    (hlt : ino < l.length) (k : Nat) :
    (l.set ino c).getD k [] = if k = ino then c else s.content k := by
  subst hl
  simp only [Chunk.content, List.getD_eq_getElem?_getD]
  by_cases hk : k = ino
  · subst hk; simp [hlt]
  · simp [List.getElem?_set_ne (fun e => hk e.symm), hk]

theorem good_step (d : List Nat) (s : Chunk) (x : Step) (h : Good d s) (hd : SameData d x)
    (ht : NoTornWrite s x) : Good d (step s x) := by
  cases x with
  | cache data =>
    have hd' : data = d := hd
    subst hd'
    simp only [step, cacheStep]
    split
    · refine ⟨?_, ?_, h.link, ?_, ?_, ?_⟩
      · intro t ht
        rcases List.mem_append.1 ht with h1 | h1
        · exact h.data t h1
        · simp only [List.mem_singleton] at h1; subst h1; rfl
      · intro t ht ino off hp
        rcases List.mem_append.1 ht with h1 | h1
        · exact h.inos t h1 ino off hp
        · simp only [List.mem_singleton] at h1; subst h1; cases hp
      · intro x hx; simp only [Option.some.injEq, Entry.mem.injEq] at hx; exact hx.symm
      · intro n hn; simp at hn
      · intro ino hino
        exact (h.content ino hino).mono fun t ht _ _ _ => by simp [ht]
    · exact h
  | check i =>
    simp only [step, withTask]
    split
    · next t hi =>
      simp only [checkStep]
      split
      · next hp =>
        refine good_set h hi (fun _ _ hq => by rw [hp] at hq; cases hq) _ (fun _ _ => ?_)
        split <;> simp
      · exact h
    · exact h
  | openFile i =>
    simp only [step, withTask]
    split
    · next t hi =>
      have htm := List.mem_of_getElem? hi
      simp only [openStep]
      split
      · next hp =>
        split
        · next hl =>
          refine ⟨?_, ?_, ?_, h.mem, h.size, ?_⟩
          · intro u hu
            rcases List.mem_or_eq_of_mem_set hu with h1 | h1
            · exact h.data u h1
            · subst h1; exact h.data t htm
          · intro u hu ino off hq
            simp only [List.length_append, List.length_singleton]
            rcases List.mem_or_eq_of_mem_set hu with h1 | h1
            · have := h.inos u h1 ino off hq
              exact ⟨by omega, this.2⟩
            · subst h1
              simp only [Phase.writing.injEq] at hq
              omega
          · intro ino hx
            simp only [Option.some.injEq] at hx
            simp only [List.length_append, List.length_singleton]
            omega
          · intro ino hino
            simp only [List.length_append, List.length_singleton] at hino
            simp only [Chunk.content, List.getD_eq_getElem?_getD]
            by_cases hk : ino < s.inodes.length
            · rw [List.getElem?_append_left hk]
              have := h.content ino hk
              simp only [Chunk.content, List.getD_eq_getElem?_getD] at this
              exact this.mono fun u hu o hpo _ => mem_set_of_ne hi hu (by rintro rfl; rw [hp] at hpo; cases hpo)
            · have hk' : ino = s.inodes.length := by omega
              subst hk'
              simp only [List.getElem?_concat_length, Option.getD_some]
              exact ⟨Nat.zero_le _, 0, Nat.zero_le _, fun k hk => absurd hk (Nat.not_lt_zero _),
                .inr ⟨_, mem_set_self hi, rfl⟩⟩
        · next ino hl =>
          have hlt := h.link ino hl
          refine ⟨?_, ?_, ?_, h.mem, h.size, ?_⟩
          · intro u hu
            rcases List.mem_or_eq_of_mem_set hu with h1 | h1
            · exact h.data u h1
            · subst h1; exact h.data t htm
          · intro u hu ino' off hq
            simp only [List.length_set]
            rcases List.mem_or_eq_of_mem_set hu with h1 | h1
            · exact h.inos u h1 ino' off hq
            · subst h1
              simp only [Phase.writing.injEq] at hq
              omega
          · intro ino' hx
            simp only [List.length_set]
            exact h.link ino' hx
          · intro k hk
            simp only [List.length_set] at hk
            simp only [Chunk.content]
            rw [content_set s s.inodes rfl ino [] hlt k]
            split
            · next he =>
              subst he
              exact ⟨Nat.zero_le _, 0, Nat.zero_le _, fun k hk => absurd hk (Nat.not_lt_zero _),
                .inr ⟨_, mem_set_self hi, rfl⟩⟩
            · exact (h.content k hk).mono fun u hu o hpo _ =>
                mem_set_of_ne hi hu (by rintro rfl; rw [hp] at hpo; cases hpo)
      · exact h
    · exact h
  | put i n =>
    simp only [step, withTask]
    split
    · next t hi =>
      have htm := List.mem_of_getElem? hi
      have hdt := h.data t htm
      simp only [putStep]
      split
      · next ino off hp =>
        have ⟨hlt, hoff⟩ := h.inos t htm ino off hp
        rw [hdt]
        refine ⟨?_, ?_, ?_, h.mem, h.size, ?_⟩
        · intro u hu
          rcases List.mem_or_eq_of_mem_set hu with h1 | h1
          · exact h.data u h1
          · subst h1; rfl
        · intro u hu ino' off' hq
          simp only [List.length_set]
          rcases List.mem_or_eq_of_mem_set hu with h1 | h1
          · exact h.inos u h1 ino' off' hq
          · subst h1
            simp only [Phase.writing.injEq] at hq
            obtain ⟨rfl, rfl⟩ := hq
            refine ⟨hlt, ?_⟩
            simp only [List.length_take, List.length_drop]; omega
        · intro ino' hx
          simp only [List.length_set]
          exact h.link ino' hx
        · intro k hk
          simp only [List.length_set] at hk
          simp only [Chunk.content]
          rw [content_set s s.inodes rfl ino _ hlt k]
          split
          · next he =>
            subst he
            obtain ⟨hl, o, ho, ha, hw⟩ := h.content k hk
            refine ⟨?_, ?_⟩
            · have := writeAt_length (s.content k) off ((d.drop off).take n)
              simp only [List.length_take, List.length_drop] at this
              simp only [Chunk.content] at this hl ⊢
              omega
            · by_cases hoo : o = off
              · subst hoo
                refine ⟨_, ?_, agree_extend ha ho, .inr ⟨_, mem_set_self hi, rfl⟩⟩
                simp only [List.length_take, List.length_drop]; omega
              · refine ⟨o, ho, agree_write ha ho, ?_⟩
                rcases hw with hw | ⟨u, hu, hq⟩
                · exact .inl hw
                · refine .inr ⟨u, mem_set_of_ne hi hu ?_, hq⟩
                  rintro rfl
                  rw [hp] at hq
                  simp only [Phase.writing.injEq] at hq
                  exact hoo hq.2.symm
          · next he =>
            exact (h.content k hk).mono fun u hu o hpo _ =>
              mem_set_of_ne hi hu (by
                rintro rfl; rw [hp] at hpo; simp only [Phase.writing.injEq] at hpo; exact he hpo.1.symm)
      · exact h
    · exact h
  | close i =>
    simp only [step, withTask]
    split
    · next t hi =>
      simp only [closeStep]
      split
      · next ino off hp =>
        split
        · next ho =>
          refine good_set h hi (fun _ _ hq => ?_) _ (fun _ _ => by simp)
          rw [hp] at hq
          simp only [Phase.writing.injEq] at hq
          rw [← hq.2, ho, h.data t (List.mem_of_getElem? hi)]
        · exact h
      · exact h
    · exact h
  | publish i =>
    simp only [step, withTask]
    split
    · next t hi =>
      simp only [publishStep]
      split
      · next hp =>
        refine good_erase h hi (fun _ _ hq => by rw [hp] at hq; cases hq) _ (fun x hx => by simp at hx) ?_ _
        intro n hn
        simp only [Option.some.injEq, Entry.file.injEq] at hn
        rw [← hn, h.data t (List.mem_of_getElem? hi)]
      · exact h
    · exact h
  | writeErr i =>
    simp only [step, withTask]
    split
    · next t hi =>
      have hph := ht t hi
      simp only [writeErrStep]
      have hnw : ∀ ino off, t.phase ≠ .writing ino off := by
        intro ino off hq
        rcases hph with hp | hp | hp <;> rw [hp] at hq <;> cases hq
      split
      · exact good_erase h hi hnw _ (fun x hx => by simp at hx) (fun n hn => by simp at hn) _
      · next hq => exact absurd hq (hnw _ _)
      · exact h
    · exact h
  | evict =>
    exact ⟨h.data, h.inos, h.link, fun x hx => by simp [step] at hx, fun n hn => by simp [step] at hn, h.content⟩
  | delete =>
    simp only [step]
    split
    · exact h
    · exact ⟨h.data, h.inos, fun ino hx => by simp at hx, h.mem, h.size, h.content⟩
  | deleteErr => exact ⟨h.data, h.inos, h.link, h.mem, h.size, h.content⟩

theorem good_run (d : List Nat) (l : List Step)
    (hl : Along (fun s x => SameData d x ∧ NoTornWrite s x) Chunk.empty l) : Good d (steps Chunk.empty l) :=
  along_inv (I := Good d) (fun s x h ho => good_step d s x h ho.1 ho.2) l _ (good_empty d) hl

/-! ### without overlapping tasks -/

structure Alone (s : Chunk) : Prop where
  one : s.tasks.length ≤ 1
  entry : s.tasks ≠ [] → ¬ IsFile s.entry

theorem alone_step (s : Chunk) (x : Step) (h : Alone s) (hn : NoOverlap s x) : Alone (step s x) := by
  have hset : ∀ (i : Nat) (t : Task) (l : List (List Nat)) (k : Option Nat),
      Alone { s with link := k, inodes := l, tasks := s.tasks.set i t } := by
    intro i t l k
    refine ⟨by simpa using h.one, fun hne => h.entry fun e => hne ?_⟩
    simp [e]
  have herase : ∀ (i : Nat) (t : Task) (e : Option Entry) (k : Nat), s.tasks[i]? = some t →
      Alone { s with entry := e, tasks := s.tasks.eraseIdx i, dels := k } := by
    intro i t e k hi
    have hlt : i < s.tasks.length := (List.getElem?_eq_some_iff.1 hi).1
    have h1 := h.one
    have hz : s.tasks.eraseIdx i = [] := by
      apply List.eq_nil_of_length_eq_zero
      rw [List.length_eraseIdx]; simp only [hlt, if_true]; omega
    exact ⟨by simp [hz], fun hne => absurd hz hne⟩
  cases x with
  | cache data =>
    simp only [step, cacheStep]
    split
    · next he =>
      have := hn he
      exact ⟨by simp [this], fun _ => id⟩
    · exact h
  | check i =>
    simp only [step, withTask]
    split
    · simp only [checkStep]; split
      · exact hset _ _ _ _
      · exact h
    · exact h
  | openFile i =>
    simp only [step, withTask]
    split
    · simp only [openStep]; split
      · split
        · exact hset _ _ _ _
        · exact hset _ _ _ _
      · exact h
    · exact h
  | put i n =>
    simp only [step, withTask]
    split
    · simp only [putStep]; split
      · exact hset _ _ _ _
      · exact h
    · exact h
  | close i =>
    simp only [step, withTask]
    split
    · simp only [closeStep]; split
      · split
        · exact hset _ _ _ _
        · exact h
      · exact h
    · exact h
  | publish i =>
    simp only [step, withTask]
    split
    · next t hi =>
      simp only [publishStep]; split
      · exact herase _ t _ _ hi
      · exact h
    · exact h
  | writeErr i =>
    simp only [step, withTask]
    split
    · next t hi =>
      simp only [writeErrStep]; split
      · exact herase _ t _ _ hi
      · exact herase _ t _ _ hi
      · exact h
    · exact h
  | evict => exact ⟨h.one, fun _ => id⟩
  | delete =>
    simp only [step]; split
    · exact h
    · exact ⟨h.one, h.entry⟩
  | deleteErr => exact ⟨h.one, h.entry⟩

/-! ### C109 -/

/-- C109, first part: under every interleaving, a file in the cache directory belongs to an entry of the
cache, or its removal or a write task is under way.  Missing: writes that fail half way and files that
cannot be removed. -/
theorem C109_accounted_partial (l : List Step)
    (hl : Along (fun s x => NoTornWrite s x ∧ Removes x) Chunk.empty l) :
    (steps Chunk.empty l).link.isSome →
      IsFile (steps Chunk.empty l).entry ∨ 0 < (steps Chunk.empty l).dels ∨
        ∃ t ∈ (steps Chunk.empty l).tasks, Holds t :=
  along_inv (I := Accounted) (fun s x h ho => accounted_step s x h ho.1 ho.2) l _
    (fun h => by simp [Chunk.empty] at h) hl

/-- C109, second part: when nothing is under way, a file in the directory has an entry of its size, and
its content is that of the chunk, even if several tasks wrote it at the same time. -/
theorem C109_quiet_partial (d : List Nat) (l : List Step)
    (hl : Along (fun s x => SameData d x ∧ NoTornWrite s x ∧ Removes x) Chunk.empty l)
    (hq : Quiet (steps Chunk.empty l)) (ino : Nat) (hi : (steps Chunk.empty l).link = some ino) :
    (steps Chunk.empty l).entry = some (.file d.length) ∧ (steps Chunk.empty l).content ino = d := by
  have hg := good_run d l (hl.mono fun s x h => ⟨h.1, h.2.1⟩)
  have ha := C109_accounted_partial l (hl.mono fun s x h => h.2) (by simp [hi])
  obtain ⟨h1, o, h2, h3, h4⟩ := hg.content ino (hg.link ino hi)
  have ho : o = d.length := by
    rcases h4 with h4 | ⟨t, h4, _⟩
    · exact h4
    · rw [hq.1] at h4; cases h4
  subst ho
  refine ⟨?_, agree_full h3 h1⟩
  rcases ha with ha | ha | ⟨t, ha, _⟩
  · cases he : (steps Chunk.empty l).entry with
    | none => rw [he] at ha; exact ha.elim
    | some e =>
      cases e with
      | mem x => rw [he] at ha; exact ha.elim
      | file n => rw [hg.size n he]
  · rw [hq.2] at ha; omega
  · rw [hq.1] at ha; cases ha

/-- C109, third part: whatever a reader gets from the cache is the whole chunk, at every moment, if the
chunk is not cached again while a task is writing it and no write fails half way.  (Files that cannot be
removed do no harm here.) -/
theorem C109_reader_partial (d : List Nat) (l : List Step)
    (hl : Along (fun s x => SameData d x ∧ NoTornWrite s x ∧ NoOverlap s x) Chunk.empty l)
    (x : List Nat) (hx : readChunk (steps Chunk.empty l) = some x) : x = d := by
  have hg := good_run d l (hl.mono fun s x h => ⟨h.1, h.2.1⟩)
  have ha := along_inv (I := Alone) (fun s x h ho => alone_step s x h ho) l Chunk.empty
    ⟨by simp [Chunk.empty], by simp [Chunk.empty]⟩ (hl.mono fun s x h => h.2.2)
  unfold readChunk at hx
  split at hx
  · cases hx
  · next y he =>
    rw [Option.some.injEq] at hx
    rw [← hx]; exact hg.mem y he
  · next n he =>
    cases hk : (steps Chunk.empty l).link with
    | none => rw [hk] at hx; cases hx
    | some ino =>
      rw [hk, Option.map_some, Option.some.injEq] at hx
      subst hx
      obtain ⟨h1, o, h2, h3, h4⟩ := hg.content ino (hg.link ino hk)
      rcases h4 with h4 | ⟨t, h4, _⟩
      · subst h4; exact agree_full h3 h1
      · have hne : (steps Chunk.empty l).tasks ≠ [] := fun e => by rw [e] at h4; cases h4
        exact absurd (by rw [he]; trivial) (ha.entry hne)

/-- C109, fourth part: the file takes no more than the entry weighs, plus the size of the chunk for every
task and removal that is under way.  The chunk is smaller than 4 GiB. -/
theorem C109_bound_partial (d : List Nat) (hd : d.length < 2 ^ 32) (l : List Step)
    (hl : Along (fun s x => SameData d x ∧ NoTornWrite s x ∧ Removes x) Chunk.empty l) :
    (steps Chunk.empty l).disk ≤
      ((steps Chunk.empty l).entry.map Entry.weight).getD 0 +
        d.length * ((steps Chunk.empty l).tasks.length + (steps Chunk.empty l).dels) := by
  have hg := good_run d l (hl.mono fun s x h => ⟨h.1, h.2.1⟩)
  have ha := C109_accounted_partial l (hl.mono fun s x h => h.2)
  generalize steps Chunk.empty l = s at *
  unfold Chunk.disk
  split
  · exact Nat.zero_le _
  · next ino hi =>
    have hlen := (hg.content ino (hg.link ino hi)).1
    have key : 1 ≤ s.tasks.length + s.dels → (s.content ino).length ≤
        (s.entry.map Entry.weight).getD 0 + d.length * (s.tasks.length + s.dels) := by
      intro h1
      have := Nat.mul_le_mul_left d.length h1
      omega
    rcases ha (by simp [hi]) with h1 | h1 | ⟨t, h1, _⟩
    · cases he : s.entry with
      | none => rw [he] at h1; exact h1.elim
      | some e =>
        cases e with
        | mem x => rw [he] at h1; exact h1.elim
        | file n =>
          have := hg.size n he
          subst this
          simp only [Option.map_some, Option.getD_some, Entry.weight, Entry.size, Nat.mod_eq_of_lt hd]
          omega
    · exact key (by omega)
    · have := List.length_pos_of_mem h1
      exact key (by omega)

/-- C109, fifth part: if the weights of the entries of any chunks sum up to at most the capacity, as moka
sees to it, the files of these chunks take at most the capacity once nothing is under way. -/
theorem C109_capacity_partial (chunks : List (List Nat × List Step)) (cap : Nat)
    (hd : ∀ p ∈ chunks, p.1.length < 2 ^ 32)
    (hl : ∀ p ∈ chunks, Along (fun s x => SameData p.1 x ∧ NoTornWrite s x ∧ Removes x) Chunk.empty p.2)
    (hq : ∀ p ∈ chunks, Quiet (steps Chunk.empty p.2))
    (hcap : (chunks.map fun p => ((steps Chunk.empty p.2).entry.map Entry.weight).getD 0).sum ≤ cap) :
    (chunks.map fun p => (steps Chunk.empty p.2).disk).sum ≤ cap := by
  refine Nat.le_trans ?_ hcap
  clear hcap
  induction chunks with
  | nil => exact Nat.le_refl _
  | cons p ps ih =>
    simp only [List.map_cons, List.sum_cons]
    have h1 := C109_bound_partial p.1 (hd p (by simp)) p.2 (hl p (by simp))
    have h2 := hq p (by simp)
    rw [h2.1, h2.2] at h1
    simp only [List.length_nil, Nat.add_zero, Nat.mul_zero] at h1
    have h3 := ih (fun q hq' => hd q (by simp [hq'])) (fun q hq' => hl q (by simp [hq']))
      (fun q hq' => hq q (by simp [hq']))
    omega

/-! ### cases -/

/-- Two tasks write the same file, the second one truncates what the first one has written. -/
def race : List Step :=
  [.cache [1, 2, 3], .evict, .cache [1, 2, 3], .check 0, .check 1, .openFile 0, .put 0 2, .openFile 1,
   .put 0 1, .close 0, .put 1 1, .put 1 2, .close 1, .publish 0, .evict, .cache [1, 2, 3], .publish 0]

/-- The hypotheses of `C109_bound_partial` hold in a run with an overlap; a removal is still due. -/
example : Along (fun s x => SameData [1, 2, 3] x ∧ NoTornWrite s x ∧ Removes x) Chunk.empty race ∧
    (steps Chunk.empty race).disk = 3 ∧ (steps Chunk.empty race).dels = 1 := by
  refine ⟨?_, by decide, by decide⟩
  simp [Along, race, SameData, NoTornWrite, Removes]

/-- The usual life of a chunk: the hypotheses of the other theorems. -/
def usual : List Step :=
  [.cache [1, 2], .check 0, .writeErr 0, .cache [1, 2], .check 0, .openFile 0, .put 0 1, .put 0 1, .close 0,
   .publish 0, .evict, .delete, .cache [1, 2], .check 0, .openFile 0, .put 0 5, .close 0, .publish 0]

example : Along (fun s x => SameData [1, 2] x ∧ NoTornWrite s x ∧ Removes x) Chunk.empty usual ∧
    Along (fun s x => SameData [1, 2] x ∧ NoTornWrite s x ∧ NoOverlap s x) Chunk.empty usual ∧
    Quiet (steps Chunk.empty usual) ∧ (steps Chunk.empty usual).link = some 1 ∧
    readChunk (steps Chunk.empty usual) = some [1, 2] := by
  refine ⟨?_, ?_, by decide, by decide, by decide⟩
  · simp [Along, usual, SameData, NoTornWrite, Removes, step, withTask, cacheStep, checkStep, Chunk.empty]
  · simp [Along, usual, SameData, NoTornWrite, NoOverlap, step, withTask, cacheStep, checkStep, Chunk.empty,
      writeErrStep, openStep, putStep, closeStep, publishStep, pendingDelete]

/-! ### violations -/

/-- **C109 is violated after a failed write** (a full disk): the entry is removed, the half of the file
stays, nothing is under way, and no entry accounts for it.  When the chunk is cached again the file is
found and taken for the chunk: from then on readers get half of it.  No two tasks overlap. -/
theorem C109_violated_failed_write :
    let l1 : List Step := [.cache [1, 2], .check 0, .openFile 0, .put 0 1, .writeErr 0]
    let l2 : List Step := l1 ++ [.cache [1, 2], .check 0, .publish 0]
    Along (fun s x => SameData [1, 2] x ∧ NoOverlap s x) Chunk.empty l2 ∧
    (Quiet (steps Chunk.empty l1) ∧ (steps Chunk.empty l1).entry = none ∧ (steps Chunk.empty l1).disk = 1) ∧
    Quiet (steps Chunk.empty l2) ∧ readChunk (steps Chunk.empty l2) = some [1] := by
  refine ⟨?_, by decide, by decide, by decide⟩
  simp [Along, SameData, NoOverlap, step, withTask, cacheStep, checkStep, Chunk.empty,
      writeErrStep, openStep, putStep]

/-- Whatever the chunk and however much of it was written: the part that was written stays without an entry, and whoever
caches the chunk again serves that part from then on. -/
theorem C109_violated_torn_always (d : List Nat) (n : Nat) :
    let l1 : List Step := [.cache d, .check 0, .openFile 0, .put 0 n, .writeErr 0]
    (Quiet (steps Chunk.empty l1) ∧ (steps Chunk.empty l1).entry = none ∧
      (steps Chunk.empty l1).disk = min n d.length) ∧
    readChunk (steps (steps Chunk.empty l1) [.cache d, .check 0, .publish 0]) = some (d.take n) := by
  simp [steps, step, cacheStep, withTask, checkStep, openStep, putStep, writeErrStep, publishStep, Chunk.empty, Quiet,
    pendingDelete, Chunk.disk, Chunk.content, writeAt, readChunk]

/-- Whatever is in the directory without an entry: it is taken for the chunk, whatever the chunk is. -/
theorem C109_violated_found_always (s : Chunk) (hq : Quiet s) (he : s.entry = none) (ino : Nat) (hl : s.link = some ino)
    (d : List Nat) : readChunk (steps s [.cache d, .check 0, .publish 0]) = some (s.content ino) := by
  obtain ⟨e, l, i, t, dl⟩ := s
  obtain ⟨rfl, rfl⟩ := hq
  simp only at he hl
  subst he hl
  simp [steps, step, cacheStep, withTask, checkStep, publishStep, pendingDelete, readChunk, Chunk.content]

/-- **C109 is violated if tasks overlap**: the second one finds the file the first one has just created,
and readers get nothing of the chunk; no step fails. -/
theorem C109_violated_overlap :
    let l : List Step := [.cache [1, 2], .evict, .cache [1, 2], .check 0, .openFile 0, .check 1, .publish 1]
    Along (fun s x => SameData [1, 2] x ∧ NoTornWrite s x ∧ Removes x) Chunk.empty l ∧
    readChunk (steps Chunk.empty l) = some [] := by
  refine ⟨?_, by decide⟩
  simp [Along, SameData, NoTornWrite, Removes]

/-- Two tasks that both succeed leave an entry that takes capacity and has no file: the second entry
replaces the first one, and the listener removes the file that both stand for. -/
theorem C109_violated_replaced :
    let l : List Step := [.cache [1, 2], .evict, .cache [1, 2], .check 0, .openFile 0, .put 0 2, .close 0,
      .check 1, .publish 0, .publish 0, .delete]
    Along (fun s x => SameData [1, 2] x ∧ NoTornWrite s x ∧ Removes x) Chunk.empty l ∧
    Quiet (steps Chunk.empty l) ∧ (steps Chunk.empty l).entry = some (.file 2) ∧
    readChunk (steps Chunk.empty l) = none := by
  refine ⟨?_, by decide, by decide, by decide⟩
  simp [Along, SameData, NoTornWrite, Removes]

/-- A file that cannot be removed stays without an entry. -/
theorem C109_violated_removal :
    let l : List Step := [.cache [1], .check 0, .openFile 0, .put 0 1, .close 0, .publish 0, .evict, .deleteErr]
    Quiet (steps Chunk.empty l) ∧ (steps Chunk.empty l).entry = none ∧ (steps Chunk.empty l).disk = 1 := by
  decide

/-! ### one removal per file entry -/

/-- How often something happens along a history. -/
def times (f : Chunk → Step → Nat) : Chunk → List Step → Nat
  | _, [] => 0
  | s, x :: l => f s x + times f (step s x) l

/-- A write task makes the entry a file. -/
def becomesFile (s : Chunk) : Step → Nat
  | .publish i => if (s.tasks[i]?).map (·.phase) = some .written then 1 else 0
  | _ => 0

/-- The listener removes the file, or tries to. -/
def triesRemoval (s : Chunk) : Step → Nat
  | .delete | .deleteErr => if s.dels = 0 then 0 else 1
  | _ => 0

theorem removal_step (s : Chunk) (x : Step) :
    pendingDelete (step s x).entry + (step s x).dels + triesRemoval s x =
      pendingDelete s.entry + s.dels + becomesFile s x := by
  cases x with
  | cache data =>
    simp only [step, cacheStep, triesRemoval, becomesFile]
    split
    · next h => simp [h, pendingDelete]
    · next h => simp [h]
  | check i =>
    simp only [step, withTask, triesRemoval, becomesFile]
    split
    · simp only [checkStep]; split <;> rfl
    · rfl
  | openFile i =>
    simp only [step, withTask, triesRemoval, becomesFile]
    split
    · simp only [openStep]
      split
      · split <;> rfl
      · rfl
    · rfl
  | put i n =>
    simp only [step, withTask, triesRemoval, becomesFile]
    split
    · simp only [putStep]; split <;> rfl
    · rfl
  | close i =>
    simp only [step, withTask, triesRemoval, becomesFile]
    split
    · simp only [closeStep]
      split
      · split <;> rfl
      · rfl
    · rfl
  | publish i =>
    simp only [step, withTask, triesRemoval, becomesFile]
    cases ht : s.tasks[i]? with
    | none => simp
    | some t =>
      have e : (if (some t).map (·.phase) = some Phase.written then 1 else 0) =
          (if t.phase = .written then 1 else 0) := by simp
      rw [e]
      simp only [publishStep]
      split
      · next hp => rw [if_pos hp]; simp only [pendingDelete]; omega
      · next hp => rw [if_neg hp]
  | writeErr i =>
    simp only [step, withTask, triesRemoval, becomesFile]
    split
    · simp only [writeErrStep]
      split <;> simp [pendingDelete] <;> omega
    · rfl
  | evict => simp only [step, triesRemoval, becomesFile, pendingDelete]; omega
  | delete =>
    simp only [step, triesRemoval, becomesFile]
    by_cases h : s.dels = 0
    · rw [if_pos h, if_pos h]
    · rw [if_neg h, if_neg h]; simp only; omega
  | deleteErr =>
    simp only [step, triesRemoval, becomesFile]
    by_cases h : s.dels = 0
    · rw [if_pos h]; omega
    · rw [if_neg h]; omega

/-- C109, third part: every time the entry became a file, this entry is still the current one, or a
removal is pending for it, or one has been tried: as many removals as entries that went, in every
interleaving. -/
theorem C109_one_removal (l : List Step) :
    times becomesFile Chunk.empty l =
      (if IsFile (steps Chunk.empty l).entry then 1 else 0) + (steps Chunk.empty l).dels +
        times triesRemoval Chunk.empty l := by
  have key : ∀ (l : List Step) (s : Chunk),
      pendingDelete (steps s l).entry + (steps s l).dels + times triesRemoval s l =
        pendingDelete s.entry + s.dels + times becomesFile s l := by
    intro l
    induction l with
    | nil => intro s; simp [steps, times]
    | cons x rest ih =>
      intro s
      have h1 := ih (step s x)
      have h2 := removal_step s x
      simp only [steps, List.foldl_cons, times] at h1 ⊢
      omega
  have h := key l Chunk.empty
  have e : ∀ o : Option Entry, pendingDelete o = if IsFile o then 1 else 0 := by
    intro o
    match o with
    | none => rfl
    | some (.mem _) => rfl
    | some (.file _) => rfl
  rw [e] at h
  simp only [Chunk.empty, pendingDelete] at h ⊢
  omega

/-- Two entries became files, one was evicted and its file removed. -/
example :
    let l : List Step := [.cache [1], .check 0, .openFile 0, .put 0 1, .close 0, .publish 0, .evict, .delete,
      .cache [1], .check 0, .openFile 0, .put 0 1, .close 0, .publish 0]
    times becomesFile Chunk.empty l = 2 ∧ times triesRemoval Chunk.empty l = 1 := by
  decide

/-- Chunks of 4 GiB weigh nothing, so any number of them fits. -/
theorem C109_violated_weight (k : Nat) : (Entry.file (k * 2 ^ 32)).weight = 0 := by
  simp [Entry.weight, Entry.size]

end Seafowl.Store.Files
