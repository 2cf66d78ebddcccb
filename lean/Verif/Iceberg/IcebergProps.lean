import Verif.Iceberg.Iceberg

/-!
# INSERT into Iceberg tables: C87, C88

* **C87**: an INSERT into an Iceberg table adds exactly its rows to the table and changes nothing else; if it fails it
  changes nothing.
* **C88**: of INSERTs that run at the same time none overwrites another.
-/

namespace Seafowl.Iceberg

/-! ## Specification -/

/-- The rows an INSERT has to add. -/
def Request.rows (r : Request) : List Row := (r.batches.filterMap id).flatten

/-- The query of an INSERT runs without error. -/
def Request.Runs (r : Request) : Prop := ∀ b ∈ r.batches, b ≠ none

/-- Manifests have sequence numbers up to the last one of the table (iceberg spec, "Sequence numbers"). -/
def WF (m : Meta) : Prop := ∀ s, m.current = some s → ∀ x ∈ s.manifests, x.seq ≤ m.lastSeq

/-- A table at rest: the hint (if there is one) names a readable metadata file with the given rows, and there is none with
a higher version; without a hint there are no versions. -/
def Whole (S : Sys) (h : Option Nat) (rows : List Row) : Prop :=
  S.hint = h.map some ∧ (∀ n, next h ≤ n → S.files (.ver n) = none) ∧
  match h with
  | some v => ∃ m, S.files (.ver v) = some (some m) ∧ WF m ∧ rowsOf m = rows
  | none => rows = []

/-- The rows of the table: those of the metadata file named by the hint. -/
def Sys.table (S : Sys) : Option (List Row) :=
  match S.hint with
  | none => some []
  | some none => none
  | some (some v) => S.select (.ver v)

/-- The rows of the i-th INSERT. -/
def Sys.inserted (S : Sys) (i : Nat) : List Row :=
  match S.threads[i]? with
  | some t => t.req.rows
  | none => []

/-- A value fits a column. -/
def fits (required : Bool) (ty : String) (c : Option Val) : Prop :=
  (required = true → c ≠ none) ∧ ∀ v, c = some v → v.ty = ty

/-- A row fits a schema. -/
inductive Conforms : List Field → Row → Prop
  | nil : Conforms [] []
  | cons {f fs c cs} : fits f.required f.ty c → Conforms fs cs → Conforms (f :: fs) (c :: cs)

/-! ## The new metadata -/

theorem mapM_id {α : Type} : ∀ (l : List (Option α)) (l' : List α), l.mapM id = some l' ↔ l = l'.map some := by
  intro l
  induction l with
  | nil => intro l'; cases l' <;> simp
  | cons x xs ih =>
    intro l'
    cases x with
    | none => cases l' <;> simp [List.mapM_cons]
    | some x =>
      cases hx : xs.mapM id with
      | none =>
        cases l' with
        | nil => simp [List.mapM_cons, hx]
        | cons y ys =>
          simp only [List.mapM_cons, hx, id]
          constructor
          · intro h; simp at h
          · intro h
            simp only [List.map_cons, List.cons.injEq] at h
            have := (ih ys).2 h.2
            rw [hx] at this; cases this
      | some zs =>
        have h1 := (ih zs).1 hx
        cases l' with
        | nil => simp [List.mapM_cons, hx]
        | cons y ys =>
          simp only [List.mapM_cons, hx, id]
          subst h1
          constructor
          · intro h
            simp at h
            simp [h.1, h.2]
          · intro h
            simp only [List.map_cons, List.cons.injEq, Option.some.injEq] at h
            have := List.map_inj_right (fun x y (e : some x = some y) => Option.some.inj e) |>.1 h.2
            simp [h.1, this]

theorem writeData_ok (r : Request) (bs : List (List Row)) (hb : r.batches.mapM id = some bs) :
    bs.flatten = r.rows ∧ r.Runs := by
  have := (mapM_id _ _).1 hb
  unfold Request.rows Request.Runs
  rw [this]
  refine ⟨?_, ?_⟩
  · congr 1
    induction bs with
    | nil => rfl
    | cons x xs ih => simp [List.filterMap_map]
  · intro b hb
    obtain ⟨x, _, rfl⟩ := List.mem_map.1 hb
    simp

theorem writeData_runs (r : Request) (hr : r.Runs) : ∃ bs, r.batches.mapM id = some bs := by
  have : ∃ bs : List (List Row), r.batches = bs.map some := by
    unfold Request.Runs at hr
    generalize r.batches = l at hr
    induction l with
    | nil => exact ⟨[], rfl⟩
    | cons x xs ih =>
      obtain ⟨bs, hbs⟩ := ih (fun b hb => hr b (List.mem_cons_of_mem _ hb))
      cases x with
      | none => exact absurd rfl (hr none List.mem_cons_self)
      | some x => exact ⟨x :: bs, by simp [hbs]⟩
  obtain ⟨bs, h⟩ := this
  exact ⟨bs, (mapM_id _ _).2 h⟩

theorem find_last (l : List Snap) (s : Snap) (h : l.any (·.id == s.id) = false) :
    (l ++ [s]).find? (·.id == s.id) = some s := by
  rw [List.find?_append]
  have : l.find? (·.id == s.id) = none := by
    rw [List.find?_eq_none]
    intro x hx hc
    have := List.any_eq_false.1 h x hx
    exact this hc
  simp [this]

theorem deleted_append (ms : List Manifest) (rows : List Row) (q seq : Nat) (r : Row) :
    deleted (ms ++ [⟨.data, q, rows⟩]) seq r = deleted ms seq r := by
  simp [deleted, List.any_append]

theorem not_deleted (ms : List Manifest) (q : Nat) (h : ∀ x ∈ ms, x.seq ≤ q) (r : Row) : deleted ms (q + 1) r = false := by
  simp only [deleted, List.any_eq_false]
  intro x hx
  have := h x hx
  simp only [Bool.and_eq_true, decide_eq_true_eq, not_and]
  intro h1
  omega

theorem snapRows_append (ms : List Manifest) (q : Nat) (h : ∀ x ∈ ms, x.seq ≤ q) (rows : List Row) :
    (ms ++ [(⟨.data, q + 1, rows⟩ : Manifest)]).flatMap (liveIn (ms ++ [(⟨.data, q + 1, rows⟩ : Manifest)])) = ms.flatMap (liveIn ms) ++ rows := by
  rw [List.flatMap_append]
  have e : liveIn (ms ++ [⟨.data, q + 1, rows⟩]) = fun m => liveIn ms m := by
    funext m
    unfold liveIn
    cases m.kind with
    | data => simp only [deleted_append]
    | deletes => rfl
  rw [e]
  congr 1
  have : ∀ r ∈ rows, (!deleted ms (q + 1) r) = true := fun r _ => by rw [not_deleted ms q h r]; rfl
  simp [liveIn, List.filter_eq_self.2 this]

/-- What reading a table means: a row is shown exactly if a data manifest of the current snapshot has it and no deletion with
a larger sequence number names it. -/
theorem C87_rows_meaning (m : Meta) (s : Snap) (hs : m.current = some s) (r : Row) :
    r ∈ rowsOf m ↔ ∃ d ∈ s.manifests, d.kind = .data ∧ r ∈ d.rows ∧
      ∀ x ∈ s.manifests, x.kind = .deletes → d.seq < x.seq → r ∉ x.rows := by
  have hdel : ∀ q, deleted s.manifests q r = false ↔ ∀ x ∈ s.manifests, x.kind = .deletes → q < x.seq → r ∉ x.rows := by
    intro q
    simp only [deleted, List.any_eq_false, Bool.and_eq_true, beq_iff_eq, decide_eq_true_eq, List.contains_iff_mem, not_and]
    exact ⟨fun h x hx h1 h2 => h x hx ⟨h1, h2⟩, fun h x hx h1 => h x hx h1.1 h1.2⟩
  simp only [rowsOf, hs, snapRows, List.mem_flatMap]
  refine exists_congr (fun d => and_congr_right (fun _ => ?_))
  unfold liveIn
  cases hk : d.kind with
  | data => simp only [List.mem_filter, Bool.not_eq_true', hdel, true_and]
  | deletes => simp

/-- A row deleted with sequence number 2: the copy of sequence number 2 is shown, that of 1 is not. -/
example : rowsOf ⟨[(0, [])], 0, 2, [⟨5, 0, 2, [⟨.data, 1, [[none]]⟩, ⟨.deletes, 2, [[none]]⟩, ⟨.data, 2, [[none]]⟩]⟩], some 5, []⟩ =
    [[none]] := by decide

/-- What the metadata written by an INSERT are. -/
theorem wanted_spec (r : Request) (h : Option Nat) (m m' : Meta) (rows : List Row) (hw : WF m)
    (hm : wanted r h m rows = some m') :
    rowsOf m' = rowsOf m ++ rows ∧ WF m' ∧ m'.schemas = m.schemas ∧ m'.schemaId = m.schemaId ∧
    m'.lastSeq = m.lastSeq + 1 ∧ (∃ s, m'.current = some s ∧ s.id = r.sid ∧ s.seq = m'.lastSeq ∧ m'.snaps = m.snaps ++ [s]) ∧
    m'.previous = m.previous ++ (h.map Path.ver).toList := by
  unfold wanted updateMeta at hm
  split at hm
  · cases hm
  · rename_i hid
    have hid' : m.snaps.any (·.id == (newSnap m r.sid rows).id) = false := by simpa using hid
    injection hm with hm
    subst hm
    have hcur : Meta.current { m with snaps := m.snaps ++ [newSnap m r.sid rows], lastSeq := (newSnap m r.sid rows).seq, main := some (newSnap m r.sid rows).id, previous := m.previous ++ (h.map Path.ver).toList } = some (newSnap m r.sid rows) := by
      unfold Meta.current
      exact find_last _ _ hid'
    refine ⟨?_, ?_, rfl, rfl, rfl, ⟨_, hcur, rfl, rfl, rfl⟩, rfl⟩
    · unfold rowsOf
      rw [hcur]
      simp only [snapRows, newSnap, newManifests]
      cases hc : m.current with
      | none => simp [liveIn, deleted]
      | some s =>
        simp only []
        exact snapRows_append _ _ (hw s hc) rows
    · intro s hs x hx
      rw [hcur] at hs
      injection hs with hs
      subst hs
      show x.seq ≤ m.lastSeq + 1
      simp only [newSnap, newManifests] at hx
      cases hc : m.current with
      | none =>
        simp only [hc, List.mem_singleton] at hx
        subst hx
        exact Nat.le_refl _
      | some s =>
        simp only [hc, List.mem_append, List.mem_singleton] at hx
        rcases hx with hx | hx
        · exact Nat.le_succ_of_le (hw s hc x hx)
        · subst hx
          exact Nat.le_refl _

theorem wf_empty (fs : List Field) : WF (emptyMeta fs) := by
  intro s hs
  cases hs

theorem rows_empty (fs : List Field) : rowsOf (emptyMeta fs) = [] := rfl

/-! ## INSERTs at the same time -/

/-- The hint after j INSERTs. -/
def hintAt (h0 : Option Nat) : Nat → Option Nat
  | 0 => h0
  | j + 1 => some (next h0 + j)

theorem next_hintAt (h0 : Option Nat) (j : Nat) : next (hintAt h0 j) = next h0 + j := by
  cases j with
  | zero => rfl
  | succ j => rfl

/-- What is known of an INSERT while the table has the versions written by the INSERTs `order`, and the hint names the
one after the first `k`. -/
def ThOk (h0 : Option Nat) (S : Sys) (order : List Nat) (k i : Nat) (t : Th) : Prop :=
  match t.pc with
  | .start => t.wrote = none
  | .hinted h => t.wrote = none ∧ ∃ j, j ≤ k ∧ h = hintAt h0 j
  | .based h m => t.wrote = none ∧ ∃ j, j ≤ k ∧ h = hintAt h0 j ∧ (∀ v, h = some v → S.files (.ver v) = some (some m)) ∧
      (h = none → rowsOf m = [] ∧ WF m)
  | .written h m rows => t.wrote = none ∧ rows = t.req.rows ∧ t.req.Runs ∧ ∃ j, j ≤ k ∧ h = hintAt h0 j ∧
      (∀ v, h = some v → S.files (.ver v) = some (some m)) ∧ (h = none → rowsOf m = [] ∧ WF m)
  | .committed v => v = next h0 + k ∧ k + 1 = order.length ∧ order[k]? = some i ∧ t.wrote = some v
  | .done => (∃ j, j < k ∧ order[j]? = some i) ∧ t.wrote ≠ none
  | .failed e => if t.wrote = none then True else e = .io ∧ i ∈ order

structure Inv (h0 : Option Nat) (rows0 : List Row) (order : List Nat) (k : Nat) (S : Sys) : Prop where
  hint : S.hint = (hintAt h0 k).map some
  kle : k = order.length ∨ k + 1 = order.length
  vers : ∀ j v, j ≤ order.length → hintAt h0 j = some v → ∃ m, S.files (.ver v) = some (some m) ∧ WF m ∧
    rowsOf m = rows0 ++ (order.take j).flatMap S.inserted
  base : h0 = none → rows0 = []
  top : ∀ n, next h0 + order.length ≤ n → S.files (.ver n) = none
  nodup : order.Nodup
  mem : ∀ i ∈ order, ∃ t, S.threads[i]? = some t ∧ t.wrote ≠ none ∧ t.req.Runs
  ths : ∀ i t, S.threads[i]? = some t → ThOk h0 S order k i t

theorem inv_start (S : Sys) (h0 : Option Nat) (rows0 : List Row) (hw : Whole S h0 rows0) (ht : S.threads = []) :
    Inv h0 rows0 [] 0 S := by
  obtain ⟨h1, h2, h3⟩ := hw
  refine ⟨h1, Or.inl rfl, ?_, ?_, ?_, List.nodup_nil, ?_, ?_⟩
  · intro j v hj hv
    have : j = 0 := by simpa using hj
    subst this
    simp only [hintAt] at hv
    subst hv
    obtain ⟨m, hm, hwf, hr⟩ := h3
    exact ⟨m, hm, hwf, by simp [hr]⟩
  · intro h
    subst h
    exact h3
  · intro n hn
    exact h2 n (by simpa using hn)
  · intro i hi
    simp at hi
  · intro i t hi
    simp [ht] at hi

theorem lt_of_get {α : Type} {l : List α} {i : Nat} {x : α} (h : l[i]? = some x) : i < l.length := by
  rcases Nat.lt_or_ge i l.length with h' | h'
  · exact h'
  · rw [List.getElem?_eq_none h'] at h; cases h

/-- Threads that keep their request. -/
theorem inserted_set (S : Sys) (files : Path → Option (Option Meta)) (hint : Option (Option Nat)) (i : Nat) (t t' : Th)
    (hi : S.threads[i]? = some t) (hr : t'.req = t.req) :
    Sys.inserted { files := files, hint := hint, threads := S.threads.set i t' } = S.inserted := by
  funext j
  unfold Sys.inserted
  by_cases hij : i = j
  · subst hij
    rw [List.getElem?_set_self (lt_of_get hi), hi]
    simp only [hr]
  · simp only [List.getElem?_set, hij, if_false]

/-- An INSERT goes on without touching the files. -/
theorem inv_local (h0 : Option Nat) (rows0 : List Row) (order : List Nat) (k : Nat) (S : Sys) (i : Nat) (t t' : Th)
    (hI : Inv h0 rows0 order k S) (hi : S.threads[i]? = some t) (hr : t'.req = t.req) (hwr : t'.wrote = t.wrote)
    (hok : ThOk h0 S order k i t') : Inv h0 rows0 order k (S.setTh i t') := by
  have hlt := lt_of_get hi
  have hins := inserted_set S S.files S.hint i t t' hi hr
  refine ⟨hI.hint, hI.kle, ?_, hI.base, hI.top, hI.nodup, ?_, ?_⟩
  · intro j v hj hv
    obtain ⟨m, h1, h2, h3⟩ := hI.vers j v hj hv
    refine ⟨m, h1, h2, ?_⟩
    rw [h3]
    congr 2
    exact hins.symm
  · intro x hx
    obtain ⟨u, hu, hw⟩ := hI.mem x hx
    by_cases hxi : x = i
    · subst hxi
      rw [hi] at hu
      injection hu with hu
      subst hu
      exact ⟨t', by simp [Sys.setTh, hlt], by rw [hwr, hr]; exact hw⟩
    · exact ⟨u, by simp [Sys.setTh, Ne.symm hxi, hu], hw⟩
  · intro x u hu
    simp only [Sys.setTh, List.getElem?_set] at hu
    split at hu
    · rename_i hxi
      subst hxi
      simp only [Option.some.injEq] at hu
      subst hu
      exact hok
    · exact hI.ths x u hu

/-- An INSERT writes the next version. -/
theorem inv_commit (h0 : Option Nat) (rows0 : List Row) (order : List Nat) (k : Nat) (S : Sys) (i : Nat) (t : Th)
    (hI : Inv h0 rows0 order k S) (hi : S.threads[i]? = some t) (h : Option Nat) (m m' : Meta) (rows : List Row) (pc : Pc)
    (hpc : t.pc = .written h m rows) (hwant : wanted t.req h m rows = some m') (hfree : S.files (.ver (next h)) = none)
    (hnew : pc = .committed (next h) ∨ pc = .failed .io) :
    Inv h0 rows0 (order ++ [i]) k
      ({ S with files := setFile S.files (.ver (next h)) m' }.setTh i { t with pc := pc, wrote := some (next h) }) := by
  have hlt := lt_of_get hi
  have hth := hI.ths i t hi
  simp only [ThOk, hpc] at hth
  obtain ⟨hwr, hrows, hruns, j, hj, hh, hfile, hnone⟩ := hth
  have hnx : next h = next h0 + j := by rw [hh, next_hintAt]
  -- the base version is the newest one
  have hjl : order.length ≤ j := by
    rcases Nat.lt_or_ge j order.length with hlt' | hge
    · exfalso
      obtain ⟨x, hx, _⟩ := hI.vers (j + 1) (next h0 + j) hlt' rfl
      rw [← hnx, hfree] at hx
      cases hx
    · exact hge
  have hk : k = order.length ∧ j = order.length := by
    rcases hI.kle with h1 | h1 <;> omega
  have hnot : i ∉ order := by
    intro hc
    obtain ⟨u, hu, hw⟩ := hI.mem i hc
    rw [hi] at hu
    injection hu with hu
    subst hu
    exact hw.1 hwr
  have hm : WF m ∧ rowsOf m = rows0 ++ order.flatMap S.inserted := by
    cases hv : h with
    | none =>
      obtain ⟨hr, hw⟩ := hnone hv
      have : j = 0 ∧ h0 = none := by
        cases j with
        | zero => rw [hv] at hh; exact ⟨rfl, hh.symm⟩
        | succ j => rw [hv] at hh; cases hh
      have ho : order = [] := List.eq_nil_of_length_eq_zero (by omega)
      exact ⟨hw, by rw [hr, hI.base this.2, ho]; rfl⟩
    | some v =>
      obtain ⟨x, hx, hw, hr⟩ := hI.vers j v (by omega) (by rw [← hh, hv])
      rw [hfile v hv] at hx
      injection hx with hx
      injection hx with hx
      subst hx
      rw [List.take_of_length_le (by omega)] at hr
      exact ⟨hw, hr⟩
  have hspec := wanted_spec t.req h m m' rows hm.1 hwant
  have hins : ∀ files hint, Sys.inserted { files := files, hint := hint, threads := S.threads.set i { t with pc := pc, wrote := some (next h) } } = S.inserted :=
    fun files hint => inserted_set S files hint i t _ hi rfl
  have hii : S.inserted i = rows := by
    unfold Sys.inserted
    rw [hi, hrows]
  have hkeep : ∀ v x, S.files (.ver v) = some x → setFile S.files (.ver (next h)) m' (.ver v) = some x := by
    intro v x hx
    unfold setFile
    split
    · rename_i he
      rw [he, hfree] at hx
      cases hx
    · exact hx
  refine ⟨hI.hint, ?_, ?_, hI.base, ?_, ?_, ?_, ?_⟩
  · right
    simp only [List.length_append, List.length_singleton]
    omega
  · intro a v ha hv
    simp only [Sys.setTh, hins]
    simp only [List.length_append, List.length_singleton] at ha
    rcases Nat.lt_or_ge a (order.length + 1) with hal | hal
    · obtain ⟨x, hx, hw, hr⟩ := hI.vers a v (by omega) hv
      refine ⟨x, hkeep v _ hx, hw, ?_⟩
      rw [hr, List.take_append_of_le_length (by omega)]
    · have hae : a = order.length + 1 := by omega
      subst hae
      simp only [hintAt, Option.some.injEq] at hv
      subst hv
      refine ⟨m', ?_, hspec.2.1, ?_⟩
      · simp [setFile, hnx, hk.2]
      · rw [List.take_of_length_le (by simp), hspec.1, hm.2]
        simp [List.flatMap_append, hii]
  · intro n hn
    simp only [List.length_append, List.length_singleton] at hn
    simp only [Sys.setTh, setFile]
    split
    · rename_i he
      injection he with he
      omega
    · exact hI.top n (by omega)
  · rw [List.nodup_append]
    exact ⟨hI.nodup, by simp, by
      intro a ha b hb
      simp only [List.mem_singleton] at hb
      subst hb
      intro hab
      subst hab
      exact hnot ha⟩
  · intro x hx
    simp only [List.mem_append, List.mem_singleton] at hx
    rcases hx with hx | hx
    · obtain ⟨u, hu, hw⟩ := hI.mem x hx
      have hxi : x ≠ i := fun hc => hnot (hc ▸ hx)
      exact ⟨u, by simp [Sys.setTh, Ne.symm hxi, hu], hw⟩
    · subst hx
      exact ⟨{ t with pc := pc, wrote := some (next h) }, by simp [Sys.setTh, hlt], by simp, hruns⟩
  · intro x u hu
    simp only [Sys.setTh, List.getElem?_set] at hu
    split at hu
    · rename_i hxi
      subst hxi
      simp only [Option.some.injEq] at hu
      subst hu
      rcases hnew with hp | hp
      · subst hp
        refine ⟨by omega, by simp; omega, ?_, rfl⟩
        rw [hk.1]
        simp
      · subst hp
        simp [ThOk]
    · rename_i hxi
      have hu' := hI.ths x u hu
      unfold ThOk at hu' ⊢
      cases hp : u.pc with
      | start => rw [hp] at hu'; exact hu'
      | hinted h' => rw [hp] at hu'; exact hu'
      | based h' m1 =>
        rw [hp] at hu'
        obtain ⟨a1, b, a2, a3, a4, a5⟩ := hu'
        exact ⟨a1, b, a2, a3, fun v hv => hkeep v _ (a4 v hv), a5⟩
      | written h' m1 r1 =>
        rw [hp] at hu'
        obtain ⟨a1, a1', a1'', b, a2, a3, a4, a5⟩ := hu'
        exact ⟨a1, a1', a1'', b, a2, a3, fun v hv => hkeep v _ (a4 v hv), a5⟩
      | committed v =>
        rw [hp] at hu'
        simp only at hu'
        omega
      | done =>
        rw [hp] at hu'
        obtain ⟨⟨b, hb, hbi⟩, hw⟩ := hu'
        exact ⟨⟨b, hb, by rw [List.getElem?_append_left (lt_of_get hbi)]; exact hbi⟩, hw⟩
      | failed e =>
        rw [hp] at hu'
        simp only at hu' ⊢
        split
        · trivial
        · rename_i hne
          rw [if_neg hne] at hu'
          exact ⟨hu'.1, List.mem_append_left _ hu'.2⟩

/-- An INSERT writes the hint. -/
theorem inv_hint (h0 : Option Nat) (rows0 : List Row) (order : List Nat) (k : Nat) (S : Sys) (i : Nat) (t : Th)
    (hI : Inv h0 rows0 order k S) (hi : S.threads[i]? = some t) (v : Nat) (pc : Pc)
    (hpc : t.pc = .committed v) (hnew : pc = .done ∨ pc = .failed .io) :
    Inv h0 rows0 order (k + 1) ({ S with hint := some (some v) }.setTh i { t with pc := pc }) := by
  have hlt := lt_of_get hi
  have hth := hI.ths i t hi
  simp only [ThOk, hpc] at hth
  obtain ⟨hv, hk, hki, hwr⟩ := hth
  have hins : ∀ files hint, Sys.inserted { files := files, hint := hint, threads := S.threads.set i { t with pc := pc } } = S.inserted :=
    fun files hint => inserted_set S files hint i t _ hi rfl
  refine ⟨by simp [Sys.setTh, hintAt, hv], Or.inl hk, ?_, hI.base, hI.top, hI.nodup, ?_, ?_⟩
  · intro a w ha hw
    simp only [Sys.setTh, hins]
    exact hI.vers a w ha hw
  · intro x hx
    obtain ⟨u, hu, hw⟩ := hI.mem x hx
    by_cases hxi : x = i
    · subst hxi
      rw [hi] at hu
      injection hu with hu
      subst hu
      exact ⟨{ t with pc := pc }, by simp [Sys.setTh, hlt], hw⟩
    · exact ⟨u, by simp [Sys.setTh, Ne.symm hxi, hu], hw⟩
  · intro x u hu
    simp only [Sys.setTh, List.getElem?_set] at hu
    split at hu
    · rename_i hxi
      subst hxi
      simp only [Option.some.injEq] at hu
      subst hu
      rcases hnew with hp | hp
      · subst hp
        exact ⟨⟨k, Nat.lt_succ_self k, hki⟩, by simp [hwr]⟩
      · subst hp
        simp only [ThOk, hwr]
        simp [List.mem_of_getElem? hki]
    · rename_i hxi
      have hu' := hI.ths x u hu
      unfold ThOk at hu' ⊢
      cases hp : u.pc with
      | start => rw [hp] at hu'; exact hu'
      | hinted h' =>
        rw [hp] at hu'
        obtain ⟨a1, b, a2, a3⟩ := hu'
        exact ⟨a1, b, Nat.le_succ_of_le a2, a3⟩
      | based h' m1 =>
        rw [hp] at hu'
        obtain ⟨a1, b, a2, a3⟩ := hu'
        exact ⟨a1, b, Nat.le_succ_of_le a2, a3⟩
      | written h' m1 r1 =>
        rw [hp] at hu'
        obtain ⟨a1, a1', a1'', b, a2, a3⟩ := hu'
        exact ⟨a1, a1', a1'', b, Nat.le_succ_of_le a2, a3⟩
      | committed w =>
        rw [hp] at hu'
        simp only at hu'
        rw [hki] at hu'
        exact absurd (Option.some.inj hu'.2.2.1) hxi
      | done =>
        rw [hp] at hu'
        obtain ⟨⟨b, hb, hbi⟩, hw⟩ := hu'
        exact ⟨⟨b, Nat.lt_succ_of_lt hb, hbi⟩, hw⟩
      | failed e => rw [hp] at hu'; exact hu'

theorem flatMap_ext {α β : Type} (f g : α → List β) : ∀ l : List α, (∀ x ∈ l, f x = g x) → l.flatMap f = l.flatMap g
  | [], _ => rfl
  | x :: xs, h => by
    rw [List.flatMap_cons, List.flatMap_cons, h x List.mem_cons_self,
      flatMap_ext f g xs (fun y hy => h y (List.mem_cons_of_mem _ hy))]

theorem inv_admit (h0 : Option Nat) (rows0 : List Row) (order : List Nat) (k : Nat) (S : Sys) (r : Request)
    (hI : Inv h0 rows0 order k S) : Inv h0 rows0 order k { S with threads := S.threads ++ [⟨r, .start, none⟩] } := by
  have hold : ∀ i (t : Th), S.threads[i]? = some t → (S.threads ++ [⟨r, .start, none⟩])[i]? = some t := fun i t h => by
    rw [List.getElem?_append_left (lt_of_get h)]; exact h
  refine ⟨hI.hint, hI.kle, ?_, hI.base, hI.top, hI.nodup, ?_, ?_⟩
  · intro j v hj hv
    obtain ⟨m, h1, h2, h3⟩ := hI.vers j v hj hv
    refine ⟨m, h1, h2, ?_⟩
    rw [h3]
    congr 1
    apply flatMap_ext
    intro i hi
    obtain ⟨t, ht, _⟩ := hI.mem i (List.mem_of_mem_take hi)
    simp only [Sys.inserted, ht, hold i t ht]
  · intro i hi
    obtain ⟨t, ht, hw⟩ := hI.mem i hi
    exact ⟨t, hold i t ht, hw⟩
  · intro i t ht
    rcases Nat.lt_or_ge i S.threads.length with hlt | hge
    · rw [List.getElem?_append_left hlt] at ht
      exact hI.ths i t ht
    · have hi := lt_of_get ht
      simp only [List.length_append, List.length_singleton] at hi
      have : i = S.threads.length := by omega
      subst this
      simp only [List.getElem?_concat_length, Option.some.injEq] at ht
      subst ht
      rfl

/-- An INSERT that wrote nothing may end with any error. -/
theorem fail_ok (h0 : Option Nat) (S : Sys) (order : List Nat) (k i : Nat) (t : Th) (e : Err) (hw : t.wrote = none) :
    ThOk h0 S order k i { t with pc := .failed e } := by
  simp [ThOk, hw]

/-- A running INSERT may end with an I/O error. -/
theorem io_ok (h0 : Option Nat) (S : Sys) (order : List Nat) (k i : Nat) (t : Th) (h : ThOk h0 S order k i t)
    (hd : t.pc ≠ .done) : ThOk h0 S order k i { t with pc := .failed .io } := by
  unfold ThOk at h
  cases hp : t.pc with
  | start => rw [hp] at h; exact fail_ok _ _ _ _ _ _ _ h
  | hinted h' => rw [hp] at h; exact fail_ok _ _ _ _ _ _ _ h.1
  | based h' m => rw [hp] at h; exact fail_ok _ _ _ _ _ _ _ h.1
  | written h' m rows => rw [hp] at h; exact fail_ok _ _ _ _ _ _ _ h.1
  | committed v =>
    rw [hp] at h
    simp only at h
    simp only [ThOk, h.2.2.2]
    simp [List.mem_of_getElem? h.2.2.1]
  | done => exact absurd hp hd
  | failed e =>
    rw [hp] at h
    simp only at h
    simp only [ThOk]
    split
    · trivial
    · rename_i hne
      rw [if_neg hne] at h
      exact ⟨trivial, h.2⟩

/-- What an access does: it leaves the versions and the hint as they are, writes the next version, or the hint. -/
theorem inv_step (conv : String → Option String) (h0 : Option Nat) (rows0 : List Row) (order : List Nat) (k : Nat) (S : Sys)
    (i : Nat) (t : Th) (hI : Inv h0 rows0 order k S) (hi : S.threads[i]? = some t) :
    (Inv h0 rows0 order k (S.stepTh conv i t) ∧ (∀ v, t.pc ≠ .committed v) ∧
      (t.pc = .done ∨ (∃ u, S.stepTh conv i t = S.setTh i u ∧ u.req = t.req ∧ u.wrote = t.wrote ∧ u.pc ≠ .done) ∨
        ∃ e, t.pc = .failed e)) ∨
    (k = order.length ∧ ∃ h m rows m', t.pc = .written h m rows ∧ wanted t.req h m rows = some m' ∧
      S.files (.ver (next h)) = none ∧ S.stepTh conv i t =
        { S with files := setFile S.files (.ver (next h)) m' }.setTh i { t with pc := .committed (next h), wrote := some (next h) }) ∨
    ∃ v, t.pc = .committed v ∧ S.stepTh conv i t = { S with hint := some (some v) }.setTh i { t with pc := .done } := by
  have hth := hI.ths i t hi
  unfold Sys.stepTh
  cases hp : t.pc with
  | start =>
    left
    simp only [ThOk, hp] at hth
    refine ⟨inv_local h0 rows0 order k S i t _ hI hi rfl rfl ?_, by simp,
      Or.inr (Or.inl ⟨_, rfl, rfl, rfl, ?_⟩)⟩
    · rw [hI.hint]
      cases hh : hintAt h0 k with
      | none => exact ⟨hth, k, Nat.le_refl k, hh.symm⟩
      | some v => exact ⟨hth, k, Nat.le_refl k, hh.symm⟩
    · rw [hI.hint]
      cases hintAt h0 k <;> simp [readHint]
  | hinted h =>
    left
    simp only [ThOk, hp] at hth
    obtain ⟨hw, j, hj, hh⟩ := hth
    refine ⟨inv_local h0 rows0 order k S i t _ hI hi rfl rfl ?_, by simp, Or.inr (Or.inl ⟨_, rfl, rfl, rfl, ?_⟩)⟩
    · unfold readMeta
      cases h with
      | none =>
        simp only
        cases hf : toIceberg conv t.req.schema with
        | none => exact fail_ok _ _ _ _ _ _ _ hw
        | some fs =>
          exact ⟨hw, j, hj, hh, (fun v hv => nomatch hv), fun _ => ⟨rows_empty fs, wf_empty fs⟩⟩
      | some v =>
        simp only
        cases hf : S.files (.ver v) with
        | none => exact fail_ok _ _ _ _ _ _ _ hw
        | some o =>
          cases o with
          | none => exact fail_ok _ _ _ _ _ _ _ hw
          | some m =>
            simp only
            split
            · exact ⟨hw, j, hj, hh, fun x hx => by injection hx with hx; subst hx; exact hf, fun hx => by cases hx⟩
            · exact fail_ok _ _ _ _ _ _ _ hw
    · unfold readMeta
      repeat' split
      all_goals simp
  | based h m =>
    left
    simp only [ThOk, hp] at hth
    obtain ⟨hw, hrest⟩ := hth
    refine ⟨inv_local h0 rows0 order k S i t _ hI hi rfl rfl ?_, by simp, Or.inr (Or.inl ⟨_, rfl, rfl, rfl, ?_⟩)⟩
    · unfold writeData
      cases hb : t.req.batches.mapM id with
      | none => exact fail_ok _ _ _ _ _ _ _ hw
      | some bs =>
        have := writeData_ok t.req bs hb
        exact ⟨hw, this.1, this.2, hrest⟩
    · unfold writeData
      split <;> simp
  | written h m rows =>
    simp only [ThOk, hp] at hth
    simp only
    cases hwant : wanted t.req h m rows with
    | none =>
      left
      exact ⟨inv_local h0 rows0 order k S i t _ hI hi rfl rfl (fail_ok _ _ _ _ _ _ _ hth.1), by simp, Or.inr (Or.inl ⟨_, rfl, rfl, rfl, by simp⟩)⟩
    | some m' =>
      simp only
      cases hf : S.files (.ver (next h)) with
      | some x =>
        left
        exact ⟨inv_local h0 rows0 order k S i t _ hI hi rfl rfl (fail_ok _ _ _ _ _ _ _ hth.1), by simp, Or.inr (Or.inl ⟨_, rfl, rfl, rfl, by simp⟩)⟩
      | none =>
        right; left
        refine ⟨?_, h, m, rows, m', rfl, hwant, hf, rfl⟩
        obtain ⟨_, _, _, j, hj, hh, _, _⟩ := hth
        have hnx : next h = next h0 + j := by rw [hh, next_hintAt]
        rcases Nat.lt_or_ge j order.length with hlt' | hge
        · exfalso
          obtain ⟨x, hx, _⟩ := hI.vers (j + 1) (next h0 + j) hlt' rfl
          rw [← hnx, hf] at hx
          cases hx
        · rcases hI.kle with h1 | h1 <;> omega
  | committed v => right; right; exact ⟨v, rfl, rfl⟩
  | done => left; exact ⟨hI, by simp, Or.inl rfl⟩
  | failed e => left; exact ⟨hI, by simp, Or.inr (Or.inr ⟨e, rfl⟩)⟩

theorem setTh_setTh (S : Sys) (i : Nat) (t u : Th) : (S.setTh i t).setTh i u = S.setTh i u := by
  simp [Sys.setTh]

theorem get_setTh (S : Sys) (i : Nat) (t u : Th) (h : S.threads[i]? = some t) : (S.setTh i u).threads[i]? = some u := by
  simp [Sys.setTh, lt_of_get h]

theorem running_spec (S : Sys) (i : Nat) (h : S.running i = true) :
    ∃ t, S.threads[i]? = some t ∧ t.pc ≠ .done ∧ ∀ e, t.pc ≠ .failed e := by
  unfold Sys.running at h
  split at h
  · cases h
  · rename_i t ht
    refine ⟨t, ht, ?_, ?_⟩
    · intro hc; rw [hc] at h; cases h
    · intro e hc; rw [hc] at h; cases h

theorem ended_eq (S : Sys) (i : Nat) (t : Th) (h : S.threads[i]? = some t) :
    S.ended i = S.setTh i { t with pc := .failed .io } := by
  unfold Sys.ended
  rw [h]

/-- The versions and the hint only move on. -/
theorem inv_apply (conv : String → Option String) (h0 : Option Nat) (rows0 : List Row) (order : List Nat) (k : Nat) (S : Sys)
    (e : Ev) (hI : Inv h0 rows0 order k S) :
    ∃ order' k', order <+: order' ∧ k ≤ k' ∧ Inv h0 rows0 order' k' (S.apply conv e) := by
  cases e with
  | admit r => exact ⟨order, k, List.prefix_refl _, Nat.le_refl k, inv_admit h0 rows0 order k S r hI⟩
  | step i =>
    show ∃ order' k', order <+: order' ∧ k ≤ k' ∧ Inv h0 rows0 order' k' (S.step conv i)
    unfold Sys.step
    cases hi : S.threads[i]? with
    | none => exact ⟨order, k, List.prefix_refl _, Nat.le_refl k, hI⟩
    | some t =>
      simp only
      rcases inv_step conv h0 rows0 order k S i t hI hi with ⟨h, _⟩ | ⟨hk, h, m, rows, m', h1, h2, h3, h4⟩ | ⟨v, h1, h2⟩
      · exact ⟨order, k, List.prefix_refl _, Nat.le_refl k, h⟩
      · refine ⟨order ++ [i], k, List.prefix_append _ _, Nat.le_refl k, ?_⟩
        rw [h4]
        exact inv_commit h0 rows0 order k S i t hI hi h m m' rows _ h1 h2 h3 (Or.inl rfl)
      · refine ⟨order, k + 1, List.prefix_refl _, Nat.le_succ k, ?_⟩
        rw [h2]
        exact inv_hint h0 rows0 order k S i t hI hi v _ h1 (Or.inl rfl)
  | fail i =>
    refine ⟨order, k, List.prefix_refl _, Nat.le_refl k, ?_⟩
    show Inv h0 rows0 order k (S.fail i)
    unfold Sys.fail
    split
    · rename_i hrun
      obtain ⟨t, hi, hd, _⟩ := running_spec S i hrun
      rw [ended_eq S i t hi]
      exact inv_local h0 rows0 order k S i t _ hI hi rfl rfl (io_ok _ _ _ _ _ _ (hI.ths i t hi) hd)
    · exact hI
  | lost i =>
    show ∃ order' k', order <+: order' ∧ k ≤ k' ∧ Inv h0 rows0 order' k' (S.lose conv i)
    unfold Sys.lose
    split
    · rename_i hrun
      obtain ⟨t, hi, hd, hf⟩ := running_spec S i hrun
      have hstep : S.step conv i = S.stepTh conv i t := by
        unfold Sys.step
        rw [hi]
      rw [hstep]
      rcases inv_step conv h0 rows0 order k S i t hI hi with ⟨h, _, h'⟩ | ⟨hk, h, m, rows, m', h1, h2, h3, h4⟩ | ⟨v, h1, h2⟩
      · rcases h' with h' | ⟨u, h1, h2, h3, h4⟩ | ⟨e, h'⟩
        · exact absurd h' hd
        · refine ⟨order, k, List.prefix_refl _, Nat.le_refl k, ?_⟩
          rw [h1] at h ⊢
          have hu := get_setTh S i t u hi
          rw [ended_eq _ i u hu]
          exact inv_local h0 rows0 order k _ i u _ h hu rfl rfl (io_ok _ _ _ _ _ _ (h.ths i u hu) h4)
        · exact absurd h' (hf e)
      · refine ⟨order ++ [i], k, List.prefix_append _ _, Nat.le_refl k, ?_⟩
        rw [h4, ended_eq _ i _ (get_setTh { S with files := setFile S.files (.ver (next h)) m' } i t _ hi), setTh_setTh]
        exact inv_commit h0 rows0 order k S i t hI hi h m m' rows _ h1 h2 h3 (Or.inr rfl)
      · refine ⟨order, k + 1, List.prefix_refl _, Nat.le_succ k, ?_⟩
        rw [h2, ended_eq _ i _ (get_setTh { S with hint := some (some v) } i t _ hi), setTh_setTh]
        exact inv_hint h0 rows0 order k S i t hI hi v _ h1 (Or.inr rfl)
    · exact ⟨order, k, List.prefix_refl _, Nat.le_refl k, hI⟩

theorem inv_run (conv : String → Option String) (h0 : Option Nat) (rows0 : List Row) (es : List Ev) :
    ∀ (order : List Nat) (k : Nat) (S : Sys), Inv h0 rows0 order k S →
    ∃ order' k', order <+: order' ∧ k ≤ k' ∧ Inv h0 rows0 order' k' (S.run conv es) := by
  induction es with
  | nil => exact fun order k S hI => ⟨order, k, List.prefix_refl _, Nat.le_refl k, hI⟩
  | cons e es ih =>
    intro order k S hI
    obtain ⟨o1, k1, h1, h2, h3⟩ := inv_apply conv h0 rows0 order k S e hI
    obtain ⟨o2, k2, h4, h5, h6⟩ := ih o1 k1 _ h3
    exact ⟨o2, k2, h1.trans h4, Nat.le_trans h2 h5, h6⟩

theorem inv_table (h0 : Option Nat) (rows0 : List Row) (order : List Nat) (k : Nat) (S : Sys) (hI : Inv h0 rows0 order k S) :
    S.table = some (rows0 ++ (order.take k).flatMap S.inserted) := by
  unfold Sys.table
  rw [hI.hint]
  have hk : k ≤ order.length := by rcases hI.kle with h | h <;> omega
  cases hh : hintAt h0 k with
  | none =>
    have : k = 0 ∧ h0 = none := by
      cases k with
      | zero => exact ⟨rfl, hh⟩
      | succ k => cases hh
    simp [this.1, hI.base this.2]
  | some v =>
    obtain ⟨m, h1, _, h3⟩ := hI.vers k v hk hh
    simp only [Option.map_some, Sys.select, h1, h3]

/-- **C88**: whatever the interleaving of any number of INSERTs into a table at rest, with whatever failures, the table
has its rows from before and then those of the INSERTs `seen`, each once, in the order of their commits.  Every
INSERT that succeeded is among them; those that never wrote their metadata are not, and neither are those whose query
fails or which end with a refusal.  At most one more INSERT (`late`) has written metadata that are not yet current. -/
theorem C88_serial (conv : String → Option String) (S0 : Sys) (h0 : Option Nat) (rows0 : List Row) (hw : Whole S0 h0 rows0)
    (ht : S0.threads = []) (es : List Ev) :
    ∃ seen late : List Nat, (seen ++ late).Nodup ∧ late.length ≤ 1 ∧
      (S0.run conv es).table = some (rows0 ++ seen.flatMap (S0.run conv es).inserted) ∧
      ∀ i t, (S0.run conv es).threads[i]? = some t →
        (t.pc = .done → i ∈ seen) ∧ (i ∈ seen ++ late ↔ t.wrote ≠ none) ∧ (i ∈ seen ++ late → t.req.Runs) ∧
        (∀ e, t.pc = .failed e → e ≠ .io → i ∉ seen ++ late) ∧
        (i ∈ seen ++ late → t.pc = .done ∨ t.pc = .failed .io ∨ ∃ v, t.pc = .committed v) := by
  obtain ⟨order, k, _, _, hI⟩ := inv_run conv h0 rows0 es [] 0 S0 (inv_start S0 h0 rows0 hw ht)
  refine ⟨order.take k, order.drop k, ?_, ?_, inv_table h0 rows0 order k _ hI, ?_⟩
  · rw [List.take_append_drop]; exact hI.nodup
  · rw [List.length_drop]
    rcases hI.kle with h | h <;> omega
  · intro i t hi
    rw [List.take_append_drop]
    have hth := hI.ths i t hi
    have hmem : i ∈ order → t.wrote ≠ none ∧ t.req.Runs := fun h => by
      obtain ⟨u, hu, h1⟩ := hI.mem i h
      rw [hi] at hu
      injection hu with hu
      subst hu
      exact h1
    refine ⟨?_, ⟨fun h => (hmem h).1, ?_⟩, fun h => (hmem h).2, ?_, ?_⟩
    · intro hp
      simp only [ThOk, hp] at hth
      obtain ⟨⟨j, hj, hji⟩, _⟩ := hth
      exact List.mem_of_getElem? (i := j) (by rw [List.getElem?_take, if_pos hj]; exact hji)
    · intro hne
      unfold ThOk at hth
      cases hp : t.pc with
      | start => rw [hp] at hth; exact absurd hth hne
      | hinted h => rw [hp] at hth; exact absurd hth.1 hne
      | based h m => rw [hp] at hth; exact absurd hth.1 hne
      | written h m r => rw [hp] at hth; exact absurd hth.1 hne
      | committed v => rw [hp] at hth; exact List.mem_of_getElem? hth.2.2.1
      | done => rw [hp] at hth; obtain ⟨⟨j, _, hji⟩, _⟩ := hth; exact List.mem_of_getElem? hji
      | failed e => rw [hp] at hth; simp only [if_neg hne] at hth; exact hth.2
    · intro e hp he hm
      simp only [ThOk, hp, if_neg (hmem hm).1] at hth
      exact he hth.1
    · intro hm
      have hne := (hmem hm).1
      unfold ThOk at hth
      cases hp : t.pc with
      | start => rw [hp] at hth; exact absurd hth hne
      | hinted h => rw [hp] at hth; exact absurd hth.1 hne
      | based h m => rw [hp] at hth; exact absurd hth.1 hne
      | written h m r => rw [hp] at hth; exact absurd hth.1 hne
      | committed v => exact Or.inr (Or.inr ⟨v, rfl⟩)
      | done => exact Or.inl rfl
      | failed e => rw [hp] at hth; simp only [if_neg hne] at hth; rw [hth.1]; exact Or.inr (Or.inl rfl)

/-! ## What stays -/

theorem setTh_files (S : Sys) (i : Nat) (t : Th) : (S.setTh i t).files = S.files := rfl

theorem step_files (conv : String → Option String) (S : Sys) (i : Nat) (p : Path) (x : Option Meta)
    (h : S.files p = some x) : (S.step conv i).files p = some x := by
  unfold Sys.step
  split
  · exact h
  · unfold Sys.stepTh
    split
    · exact h
    · exact h
    · exact h
    · split
      · exact h
      · split
        · exact h
        · rename_i hf
          simp only [Sys.setTh, setFile]
          split
          · rename_i he
            rw [he, hf] at h
            cases h
          · exact h
    · exact h
    · exact h
    · exact h

theorem ended_files (S : Sys) (i : Nat) : (S.ended i).files = S.files := by
  unfold Sys.ended
  split <;> rfl

/-- Requests stay what they are. -/
theorem step_req (conv : String → Option String) (S : Sys) (i j : Nat) (t : Th) (h : S.threads[j]? = some t) :
    ∃ t', (S.step conv i).threads[j]? = some t' ∧ t'.req = t.req := by
  have key : ∀ (files : Path → Option (Option Meta)) (hint : Option (Option Nat)) (u v : Th), S.threads[i]? = some u → v.req = u.req →
      ∃ t', (S.threads.set i v)[j]? = some t' ∧ t'.req = t.req := by
    intro files hint u v hu hv
    by_cases hij : i = j
    · subst hij
      rw [h] at hu
      injection hu with hu
      subst hu
      exact ⟨v, by rw [List.getElem?_set_self (lt_of_get h)], hv⟩
    · exact ⟨t, by rw [List.getElem?_set_ne hij]; exact h, rfl⟩
  unfold Sys.step
  split
  · exact ⟨t, h, rfl⟩
  · rename_i u hu
    unfold Sys.stepTh
    split
    · exact key S.files S.hint u _ hu rfl
    · exact key S.files S.hint u _ hu rfl
    · exact key S.files S.hint u _ hu rfl
    · split
      · exact key S.files S.hint u _ hu rfl
      · split
        · exact key S.files S.hint u _ hu rfl
        · exact key S.files S.hint u _ hu rfl
    · exact key S.files S.hint u _ hu rfl
    · exact ⟨t, h, rfl⟩
    · exact ⟨t, h, rfl⟩

theorem ended_req (S : Sys) (i j : Nat) (t : Th) (h : S.threads[j]? = some t) :
    ∃ t', (S.ended i).threads[j]? = some t' ∧ t'.req = t.req := by
  unfold Sys.ended
  split
  · exact ⟨t, h, rfl⟩
  · rename_i u hu
    by_cases hij : i = j
    · subst hij
      rw [h] at hu
      injection hu with hu
      subst hu
      exact ⟨{ t with pc := .failed .io }, by simp only [Sys.setTh]; rw [List.getElem?_set_self (lt_of_get h)], rfl⟩
    · exact ⟨t, by simp only [Sys.setTh]; rw [List.getElem?_set_ne hij]; exact h, rfl⟩

theorem apply_req (conv : String → Option String) (S : Sys) (e : Ev) (j : Nat) (t : Th) (h : S.threads[j]? = some t) :
    ∃ t', (S.apply conv e).threads[j]? = some t' ∧ t'.req = t.req := by
  cases e with
  | admit r =>
    refine ⟨t, ?_, rfl⟩
    show (S.threads ++ _)[j]? = some t
    rw [List.getElem?_append_left (lt_of_get h)]
    exact h
  | step i => exact step_req conv S i j t h
  | fail i =>
    show ∃ t', (S.fail i).threads[j]? = some t' ∧ t'.req = t.req
    unfold Sys.fail
    split
    · exact ended_req S i j t h
    · exact ⟨t, h, rfl⟩
  | lost i =>
    show ∃ t', (S.lose conv i).threads[j]? = some t' ∧ t'.req = t.req
    unfold Sys.lose
    split
    · obtain ⟨u, hu, hr⟩ := step_req conv S i j t h
      obtain ⟨w, hw, hr'⟩ := ended_req (S.step conv i) i j u hu
      exact ⟨w, hw, by rw [hr', hr]⟩
    · exact ⟨t, h, rfl⟩

theorem run_req (conv : String → Option String) (es : List Ev) : ∀ (S : Sys) (j : Nat) (t : Th), S.threads[j]? = some t →
    ∃ t', (S.run conv es).threads[j]? = some t' ∧ t'.req = t.req := by
  induction es with
  | nil => exact fun S j t h => ⟨t, h, rfl⟩
  | cons e es ih =>
    intro S j t h
    obtain ⟨u, hu, hr⟩ := apply_req conv S e j t h
    obtain ⟨w, hw, hr'⟩ := ih _ j u hu
    exact ⟨w, hw, by rw [hr', hr]⟩

theorem apply_files (conv : String → Option String) (S : Sys) (e : Ev) (p : Path) (x : Option Meta)
    (h : S.files p = some x) : (S.apply conv e).files p = some x := by
  cases e with
  | admit r => exact h
  | step i => exact step_files conv S i p x h
  | fail i =>
    show (S.fail i).files p = some x
    unfold Sys.fail
    split
    · rw [ended_files]; exact h
    · exact h
  | lost i =>
    show (S.lose conv i).files p = some x
    unfold Sys.lose
    split
    · rw [ended_files]; exact step_files conv S i p x h
    · exact h

/-- **C88**: a metadata file is never replaced, from whatever state and whatever happens. -/
theorem C88_immutable (conv : String → Option String) (es : List Ev) : ∀ (S : Sys) (p : Path) (x : Option Meta),
    S.files p = some x → (S.run conv es).files p = some x := by
  induction es with
  | nil => exact fun S p x h => h
  | cons e es ih => exact fun S p x h => ih _ p x (apply_files conv S e p x h)

/-- **C87**: what a name of a catalog shows (the metadata file it stands for) does not change by INSERTs.  This makes
queries repeatable; it also means that an INSERT is not visible under the name it was made under until the catalog gives
that name another metadata file. -/
theorem C87_select_stable (conv : String → Option String) (S : Sys) (es : List Ev) (p : Path) (rows : List Row)
    (h : S.select p = some rows) : (S.run conv es).select p = some rows := by
  unfold Sys.select at h ⊢
  split at h
  · rename_i m hm
    rw [C88_immutable conv es S p _ hm]
    exact h
  · cases h

/-- **C88**: rows of the table stay, in their order; later INSERTs come after them. -/
theorem C88_grows (conv : String → Option String) (S0 : Sys) (h0 : Option Nat) (rows0 : List Row) (hw : Whole S0 h0 rows0)
    (ht : S0.threads = []) (es fs : List Ev) :
    ∃ a b, (S0.run conv es).table = some a ∧ (S0.run conv (es ++ fs)).table = some (a ++ b) := by
  obtain ⟨o1, k1, _, _, hI⟩ := inv_run conv h0 rows0 es [] 0 S0 (inv_start S0 h0 rows0 hw ht)
  obtain ⟨o2, k2, hp, hk, hI2⟩ := inv_run conv h0 rows0 fs o1 k1 _ hI
  have hrun : S0.run conv (es ++ fs) = (S0.run conv es).run conv fs := by
    unfold Sys.run; rw [List.foldl_append]
  have hk1 : k1 ≤ o1.length := by rcases hI.kle with h | h <;> omega
  have e1 : o2.take k1 = o1.take k1 := by
    obtain ⟨x, rfl⟩ := hp
    rw [List.take_append_of_le_length hk1]
  have e2 : o2.take k2 = o1.take k1 ++ (o2.take k2).drop k1 := by
    rw [← e1]
    have := List.take_append_drop k1 (o2.take k2)
    rw [List.take_take, Nat.min_eq_left hk] at this
    exact this.symm
  refine ⟨_, ((o2.take k2).drop k1).flatMap ((S0.run conv es).run conv fs).inserted, inv_table h0 rows0 o1 k1 _ hI, ?_⟩
  rw [hrun, inv_table h0 rows0 o2 k2 _ hI2, e2, List.flatMap_append]
  simp only [List.append_assoc, Option.some.injEq, List.append_cancel_left_eq]
  rw [← e2]
  congr 1
  apply flatMap_ext
  intro i hi
  obtain ⟨t, hti, _⟩ := hI.mem i (List.mem_of_mem_take hi)
  obtain ⟨t', ht', hr⟩ := run_req conv fs _ i t hti
  simp only [Sys.inserted, ht', hti, hr]

/-- **C88**: the table is at rest again once every INSERT ended and none of them with an I/O error after it had written
its metadata. -/
theorem C88_rest (conv : String → Option String) (S0 : Sys) (h0 : Option Nat) (rows0 : List Row) (hw : Whole S0 h0 rows0)
    (ht : S0.threads = []) (es : List Ev)
    (hend : ∀ t ∈ (S0.run conv es).threads, t.pc = .done ∨ (t.wrote = none ∧ ∃ e, t.pc = .failed e)) :
    ∃ h rows, Whole (S0.run conv es) h rows := by
  obtain ⟨order, k, _, _, hI⟩ := inv_run conv h0 rows0 es [] 0 S0 (inv_start S0 h0 rows0 hw ht)
  have hk : k = order.length := by
    rcases hI.kle with h | h
    · exact h
    · exfalso
      have hlt : k < order.length := by omega
      have hget : order[k]? = some order[k] := List.getElem?_eq_getElem hlt
      obtain ⟨t, hti, hne, _⟩ := hI.mem order[k] (List.getElem_mem hlt)
      have hth := hI.ths _ t hti
      rcases hend t (List.mem_of_getElem? hti) with hd | ⟨hw', _⟩
      · simp only [ThOk, hd] at hth
        obtain ⟨⟨j, hj, hji⟩, _⟩ := hth
        have hjl : j < order.length := by omega
        have e : order[j]'hjl = order[k]'hlt := by
          rw [List.getElem?_eq_getElem hjl] at hji
          exact Option.some.inj hji
        exact (List.pairwise_iff_getElem.1 hI.nodup) j k hjl hlt hj e
      · exact hne hw'
  refine ⟨hintAt h0 k, rows0 ++ order.flatMap (S0.run conv es).inserted, hI.hint, ?_, ?_⟩
  · intro n hn
    rw [next_hintAt, hk] at hn
    exact hI.top n hn
  · cases hh : hintAt h0 k with
    | none =>
      have : k = 0 ∧ h0 = none := by
        cases k with
        | zero => exact ⟨rfl, hh⟩
        | succ k => cases hh
      have ho : order = [] := List.eq_nil_of_length_eq_zero (by omega)
      simp [ho, hI.base this.2]
    | some v =>
      obtain ⟨m, h1, h2, h3⟩ := hI.vers k v (by omega) hh
      rw [List.take_of_length_le (by omega)] at h3
      exact ⟨m, h1, h2, h3⟩

/-! ## One INSERT alone -/

/-- The columns of the inserted data fit those of the table, by position: as many, of the same types, and not nullable
where the table has a required column. -/
inductive Matches (conv : String → Option String) : List AField → List Field → Prop
  | nil : Matches conv [] []
  | cons {a as f fs} : conv a.ty = some f.ty → (f.required = true → a.nullable = false) → Matches conv as fs →
      Matches conv (a :: as) (f :: fs)

theorem toIceberg_cons (conv : String → Option String) (a : AField) (as : List AField) :
    toIceberg conv (a :: as) = match conv a.ty, toIceberg conv as with
      | some t, some fs => some (⟨a.name, !a.nullable, t⟩ :: fs)
      | _, _ => none := by
  unfold toIceberg
  rw [List.mapM_cons]
  cases conv a.ty with
  | none => rfl
  | some t =>
    cases List.mapM (fun f : AField => (conv f.ty).map (fun t => ({ name := f.name, required := !f.nullable, ty := t } : Field))) as with
    | none => rfl
    | some fs => rfl

theorem aligned_iff (conv : String → Option String) : ∀ (as : List AField) (fs : List Field),
    isSchemaAligned conv as fs = true ↔ Matches conv as fs := by
  intro as
  induction as with
  | nil =>
    intro fs
    cases fs with
    | nil => exact ⟨fun _ => .nil, fun _ => rfl⟩
    | cons f fs => exact ⟨fun h => by simp [isSchemaAligned, toIceberg] at h, fun h => nomatch h⟩
  | cons a as ih =>
    intro fs
    cases fs with
    | nil =>
      refine ⟨fun h => ?_, fun h => by cases h⟩
      unfold isSchemaAligned at h
      rw [toIceberg_cons] at h
      cases h1 : conv a.ty <;> cases h2 : toIceberg conv as <;> simp [h1, h2] at h
    | cons f fs =>
      have e : isSchemaAligned conv (a :: as) (f :: fs) = true ↔
          (conv a.ty = some f.ty ∧ (f.required = true → a.nullable = false)) ∧ isSchemaAligned conv as fs = true := by
        unfold isSchemaAligned
        rw [toIceberg_cons]
        cases h1 : conv a.ty with
        | none => simp
        | some t =>
          cases h2 : toIceberg conv as with
          | none => simp
          | some ns =>
            simp only [List.length_cons, fieldsAligned]
            by_cases hl : fs.length = ns.length
            · have hl' : ¬ ((fs.length + 1 != ns.length + 1) = true) := by simp [hl]
              have hl'' : ¬ ((fs.length != ns.length) = true) := by simp [hl]
              rw [if_neg hl', if_neg hl'']
              by_cases hr : (f.required && !!a.nullable) = true
              · rw [if_pos hr]
                simp only [Bool.not_not, Bool.and_eq_true] at hr
                simp [hr.1, hr.2]
              · rw [if_neg hr]
                have hr' : f.required = true → a.nullable = false := by
                  intro hx
                  simpa [hx] using hr
                by_cases ht : f.ty = t
                · subst ht
                  simp only [bne_self_eq_false, Bool.false_eq_true, if_false, true_and]
                  exact ⟨fun h => ⟨hr', h⟩, fun h => h.2⟩
                · have : (f.ty != t) = true := by simp [ht]
                  rw [if_pos this]
                  constructor
                  · intro h; cases h
                  · intro h
                    exact absurd (Option.some.inj h.1.1).symm ht
            · have hl' : ((fs.length + 1 != ns.length + 1) = true) := by simp [hl]
              have hl'' : ((fs.length != ns.length) = true) := by simp [hl]
              rw [if_pos hl', if_pos hl'']
              simp
      rw [e, ih]
      constructor
      · intro h; exact .cons h.1.1 h.1.2 h.2
      · intro h
        cases h with
        | cons h1 h2 h3 => exact ⟨⟨h1, h2⟩, h3⟩

/-- A row of the inserted data has the types of its arrow schema, and no NULL in a column that is not nullable. -/
inductive RowFits (conv : String → Option String) : List AField → Row → Prop
  | nil : RowFits conv [] []
  | cons {a as c cs} : (a.nullable = false → c ≠ none) → (∀ v, c = some v → conv a.ty = some v.ty) → RowFits conv as cs →
      RowFits conv (a :: as) (c :: cs)

/-- **C87**: rows of an INSERT whose columns match fit the schema of the table: no value of another type, no NULL in a
required column. -/
theorem C87_conforms (conv : String → Option String) (as : List AField) (fs : List Field) (r : Row)
    (ha : isSchemaAligned conv as fs = true) (hr : RowFits conv as r) : Conforms fs r := by
  rw [aligned_iff] at ha
  induction ha generalizing r with
  | nil => cases hr; exact .nil
  | cons h1 h2 _ ih =>
    cases hr with
    | cons g1 g2 g3 =>
      refine .cons ⟨fun hq => g1 (h2 hq), fun v hv => ?_⟩ (ih _ g3)
      have := g2 v hv
      rw [h1] at this
      exact (Option.some.inj this).symm

/-- The accesses of one INSERT. -/
def alone (r : Request) (i : Nat) : List Ev := [.admit r, .step i, .step i, .step i, .step i, .step i]

theorem step_last (conv : String → Option String) (files : Path → Option (Option Meta)) (hint : Option (Option Nat))
    (ts : List Th) (t : Th) :
    Sys.step conv ⟨files, hint, ts ++ [t]⟩ ts.length = Sys.stepTh conv ⟨files, hint, ts ++ [t]⟩ ts.length t := by
  unfold Sys.step
  simp

theorem set_last (ts : List Th) (t u : Th) : (ts ++ [t]).set ts.length u = ts ++ [u] := by simp

theorem setTh_last (files : Path → Option (Option Meta)) (hint : Option (Option Nat)) (ts : List Th) (t u : Th) :
    Sys.setTh ⟨files, hint, ts ++ [t]⟩ ts.length u = ⟨files, hint, ts ++ [u]⟩ := by
  unfold Sys.setTh
  rw [set_last]

/-- An INSERT that ended does nothing more. -/
theorem step_end (conv : String → Option String) (files : Path → Option (Option Meta)) (hint : Option (Option Nat))
    (ts : List Th) (t : Th) (h : t.pc = .done ∨ ∃ e, t.pc = .failed e) :
    Sys.step conv ⟨files, hint, ts ++ [t]⟩ ts.length = ⟨files, hint, ts ++ [t]⟩ := by
  rw [step_last]
  unfold Sys.stepTh
  rcases h with h | ⟨e, h⟩ <;> rw [h]

theorem alone_eq (conv : String → Option String) (S : Sys) (r : Request) :
    S.run conv (alone r S.threads.length) =
      let s := fun X : Sys => X.step conv S.threads.length
      s (s (s (s (s ⟨S.files, S.hint, S.threads ++ [⟨r, .start, none⟩]⟩)))) := rfl

/-- What an INSERT does when it runs alone from a readable base. -/
theorem alone_from (conv : String → Option String) (files : Path → Option (Option Meta)) (hint : Option (Option Nat))
    (ts : List Th) (r : Request) (h : Option Nat) (m : Meta) (hfree : files (.ver (next h)) = none) :
    let s := fun X : Sys => X.step conv ts.length
    (r.Runs ∧ m.snaps.any (·.id == r.sid) = false →
      ∃ m', wanted r h m r.rows = some m' ∧ s (s (s ⟨files, hint, ts ++ [⟨r, .based h m, none⟩]⟩)) =
        ⟨setFile files (.ver (next h)) m', some (some (next h)), ts ++ [⟨r, .done, some (next h)⟩]⟩) ∧
    (¬ (r.Runs ∧ m.snaps.any (·.id == r.sid) = false) →
      ∃ e, e ≠ .concurrency ∧ s (s (s ⟨files, hint, ts ++ [⟨r, .based h m, none⟩]⟩)) = ⟨files, hint, ts ++ [⟨r, .failed e, none⟩]⟩) := by
  intro s
  have h1 : s ⟨files, hint, ts ++ [⟨r, .based h m, none⟩]⟩ = ⟨files, hint, ts ++ [⟨r, writeData r h m, none⟩]⟩ := by
    show Sys.step conv _ ts.length = _
    rw [step_last]
    exact setTh_last _ _ _ _ _
  rw [h1]
  unfold writeData
  by_cases hr : r.Runs
  · obtain ⟨bs, hbs⟩ := writeData_runs r hr
    have hrows := (writeData_ok r bs hbs).1
    rw [hbs]
    simp only [hrows]
    cases hid : m.snaps.any (·.id == r.sid) with
    | false =>
      refine ⟨fun _ => ?_, fun hc => absurd ⟨hr, rfl⟩ hc⟩
      have hw : ∃ m', wanted r h m r.rows = some m' := by
        unfold wanted updateMeta
        have : m.snaps.any (·.id == (newSnap m r.sid r.rows).id) = false := hid
        rw [this]
        exact ⟨_, rfl⟩
      obtain ⟨m', hm'⟩ := hw
      refine ⟨m', hm', ?_⟩
      have h2 : s ⟨files, hint, ts ++ [⟨r, .written h m r.rows, none⟩]⟩ =
          ⟨setFile files (.ver (next h)) m', hint, ts ++ [⟨r, .committed (next h), some (next h)⟩]⟩ := by
        show Sys.step conv _ ts.length = _
        rw [step_last]
        simp only [Sys.stepTh, hm', hfree]
        exact setTh_last _ _ _ _ _
      rw [h2]
      show Sys.step conv _ ts.length = _
      rw [step_last]
      exact setTh_last _ _ _ _ _
    | true =>
      refine ⟨fun hc => absurd hc.2 (by simp), fun _ => ⟨.invalid, by simp, ?_⟩⟩
      have hw : wanted r h m r.rows = none := by
        unfold wanted updateMeta
        have : m.snaps.any (·.id == (newSnap m r.sid r.rows).id) = true := hid
        rw [this]
        rfl
      have h2 : s ⟨files, hint, ts ++ [⟨r, .written h m r.rows, none⟩]⟩ = ⟨files, hint, ts ++ [⟨r, .failed .invalid, none⟩]⟩ := by
        show Sys.step conv _ ts.length = _
        rw [step_last]
        simp only [Sys.stepTh, hw]
        exact setTh_last _ _ _ _ _
      rw [h2]
      exact step_end _ _ _ _ _ (Or.inr ⟨_, rfl⟩)
  · refine ⟨fun hc => absurd hc.1 hr, fun _ => ⟨.badInput, by simp, ?_⟩⟩
    have hb : r.batches.mapM id = none := by
      cases hb : r.batches.mapM id with
      | none => rfl
      | some bs => exact absurd (writeData_ok r bs hb).2 hr
    rw [hb]
    have h2 : s ⟨files, hint, ts ++ [⟨r, .failed .badInput, none⟩]⟩ = ⟨files, hint, ts ++ [⟨r, .failed .badInput, none⟩]⟩ :=
      step_end _ _ _ _ _ (Or.inr ⟨_, rfl⟩)
    simp only [h2]

/-- **C87, partial**: an INSERT that runs alone into a table at rest that has a hint either succeeds or fails.  It succeeds
exactly if its columns match those of the table, its query runs, and the id drawn for its snapshot is new.  Then the table has
its rows from before and then those of the INSERT, with the same schemas and one snapshot more, and the metadata file
before is recorded; every other metadata file is as before.  If it fails nothing changes.  (Missing: tables without a hint,
interrupted INSERTs, and the columns shown by the new snapshot; see the violations below.) -/
theorem C87_insert_partial (conv : String → Option String) (S : Sys) (v : Nat) (m : Meta) (r : Request)
    (hh : S.hint = some (some v)) (hm : S.files (.ver v) = some (some m)) (hw : WF m) (hf : S.files (.ver (v + 1)) = none) :
    let S' := S.run conv (alone r S.threads.length)
    let ok := Matches conv r.schema m.schema ∧ r.Runs ∧ ∀ s ∈ m.snaps, s.id ≠ r.sid
    (ok → (S'.threads[S.threads.length]?).map (·.pc) = some .done ∧ S'.hint = some (some (v + 1)) ∧
      (∀ p, p ≠ .ver (v + 1) → S'.files p = S.files p) ∧ S'.table = some (rowsOf m ++ r.rows) ∧
      ∃ m' s, S'.files (.ver (v + 1)) = some (some m') ∧ WF m' ∧ rowsOf m' = rowsOf m ++ r.rows ∧ m'.schemas = m.schemas ∧
        m'.schemaId = m.schemaId ∧ m'.snaps = m.snaps ++ [s] ∧ m'.current = some s ∧ s.id = r.sid ∧ s.seq = m.lastSeq + 1 ∧
        m'.lastSeq = m.lastSeq + 1 ∧ m'.previous = m.previous ++ [.ver v]) ∧
    (¬ ok → (∃ e, e ≠ .concurrency ∧ (S'.threads[S.threads.length]?).map (·.pc) = some (.failed e)) ∧
      S'.hint = S.hint ∧ S'.files = S.files) := by
  intro S' ok
  have hS' : S' = S.run conv (alone r S.threads.length) := rfl
  rw [alone_eq] at hS'
  simp only at hS'
  have h1 : Sys.step conv ⟨S.files, S.hint, S.threads ++ [⟨r, .start, none⟩]⟩ S.threads.length =
      ⟨S.files, S.hint, S.threads ++ [⟨r, .hinted (some v), none⟩]⟩ := by
    rw [step_last]
    simp only [Sys.stepTh, hh, readHint]
    exact setTh_last _ _ _ _ _
  rw [h1] at hS'
  have h2 : Sys.step conv ⟨S.files, S.hint, S.threads ++ [⟨r, .hinted (some v), none⟩]⟩ S.threads.length =
      ⟨S.files, S.hint, S.threads ++ [⟨r, if isSchemaAligned conv r.schema m.schema then .based (some v) m else .failed .badInput, none⟩]⟩ := by
    rw [step_last]
    simp only [Sys.stepTh, readMeta, hm]
    exact setTh_last _ _ _ _ _
  rw [h2] at hS'
  cases ha : isSchemaAligned conv r.schema m.schema with
  | false =>
    rw [ha] at hS'
    simp only [Bool.false_eq_true, if_false] at hS'
    have hend := step_end conv S.files S.hint S.threads ⟨r, .failed .badInput, none⟩ (Or.inr ⟨_, rfl⟩)
    rw [hend, hend, hend] at hS'
    have hna : ¬ Matches conv r.schema m.schema := by rw [← aligned_iff, ha]; simp
    refine ⟨fun ho => absurd ho.1 hna, fun _ => ⟨⟨.badInput, by simp, ?_⟩, ?_, ?_⟩⟩ <;> rw [hS'] <;> simp
  | true =>
    rw [ha] at hS'
    simp only [if_true] at hS'
    have hmat : Matches conv r.schema m.schema := by rw [← aligned_iff, ha]
    have hfrom := alone_from conv S.files S.hint S.threads r (some v) m hf
    simp only at hfrom
    have hids : m.snaps.any (·.id == r.sid) = false ↔ ∀ s ∈ m.snaps, s.id ≠ r.sid := by
      rw [List.any_eq_false]
      simp
    rw [hids] at hfrom
    refine ⟨fun ho => ?_, fun hno => ?_⟩
    · obtain ⟨m', hm', he⟩ := hfrom.1 ho.2
      rw [he] at hS'
      obtain ⟨g1, g2, g3, g4, g5, ⟨s, g6, g7, g8, g9⟩, g10⟩ := wanted_spec r (some v) m m' r.rows hw hm'
      rw [hS']
      refine ⟨by simp, rfl, ?_, ?_, m', s, ?_, g2, g1, g3, g4, g9, g6, g7, by rw [g8, g5], g5, by simpa using g10⟩
      · intro p hp
        exact if_neg hp
      · simp only [Sys.table, Sys.select, setFile, next, if_true, g1]
      · simp [setFile, next]
    · obtain ⟨e, hne, he⟩ := hfrom.2 (fun hc => hno ⟨hmat, hc⟩)
      rw [he] at hS'
      rw [hS']
      exact ⟨⟨e, hne, by simp⟩, rfl, rfl⟩

/-! ## Columns -/

/-- **C87**: whatever the current schema of the table is, after an INSERT the table shows the columns of its schema
number 0, and cannot be read if there is none any more. -/
theorem C87_columns_always (r : Request) (h : Option Nat) (m m' : Meta) (rows : List Row) (hm : wanted r h m rows = some m') :
    columns m' = m.schemas.lookup 0 ∧ m'.schema = m.schema := by
  unfold wanted updateMeta at hm
  split at hm
  · cases hm
  · rename_i hid
    have hid' : m.snaps.any (·.id == (newSnap m r.sid rows).id) = false := by simpa using hid
    injection hm with hm
    subst hm
    refine ⟨?_, rfl⟩
    have hcur : Meta.current { m with snaps := m.snaps ++ [newSnap m r.sid rows], lastSeq := (newSnap m r.sid rows).seq, main := some (newSnap m r.sid rows).id, previous := m.previous ++ (h.map Path.ver).toList } = some (newSnap m r.sid rows) := by
      unfold Meta.current
      exact find_last _ _ hid'
    unfold columns
    rw [hcur]
    rfl

/-- **C87, partial**: after an INSERT the table shows its columns, if the current schema of the table has id 0.  (Missing:
other ids, see `C87_columns_always`.) -/
theorem C87_columns_partial (r : Request) (h : Option Nat) (m m' : Meta) (rows : List Row)
    (hs : m.schemaId = 0) (fs : List Field) (hfs : m.schemas.lookup m.schemaId = some fs) (hm : wanted r h m rows = some m') :
    columns m' = some m.schema ∧ m'.schema = m.schema := by
  obtain ⟨h1, h2⟩ := C87_columns_always r h m m' rows hm
  refine ⟨?_, h2⟩
  rw [h1]
  unfold Meta.schema
  rw [← hs, hfs]
  rfl

/-! ## Tables without a hint -/

/-- **C87 violated** for tables of other catalogs, which have no `version-hint.text`: whatever the metadata file is that the
table name stands for, a successful INSERT starts a table of its own with the columns of its data, and puts only its
own rows there, in a first snapshot with sequence number 1. -/
theorem C87_no_hint (conv : String → Option String) (S : Sys) (r : Request) (fs : List Field)
    (hh : S.hint = none) (hf : S.files (.ver 0) = none) (hs : toIceberg conv r.schema = some fs) (hr : r.Runs) :
    let S' := S.run conv (alone r S.threads.length)
    (S'.threads[S.threads.length]?).map (·.pc) = some .done ∧ S'.table = some r.rows ∧
      (∃ m', S'.files (.ver 0) = some (some m') ∧ rowsOf m' = r.rows ∧ columns m' = some fs ∧
        m'.snaps.map (fun s => (s.id, s.seq)) = [(r.sid, 1)] ∧ m'.lastSeq = 1 ∧ m'.previous = []) ∧
      ∀ p, p ≠ .ver 0 → S'.files p = S.files p := by
  intro S'
  have hS' : S' = S.run conv (alone r S.threads.length) := rfl
  rw [alone_eq] at hS'
  simp only at hS'
  have h1 : Sys.step conv ⟨S.files, S.hint, S.threads ++ [⟨r, .start, none⟩]⟩ S.threads.length =
      ⟨S.files, S.hint, S.threads ++ [⟨r, .hinted none, none⟩]⟩ := by
    rw [step_last]
    simp only [Sys.stepTh, hh, readHint]
    exact setTh_last _ _ _ _ _
  rw [h1] at hS'
  have h2 : Sys.step conv ⟨S.files, S.hint, S.threads ++ [⟨r, .hinted none, none⟩]⟩ S.threads.length =
      ⟨S.files, S.hint, S.threads ++ [⟨r, .based none (emptyMeta fs), none⟩]⟩ := by
    rw [step_last]
    simp only [Sys.stepTh, readMeta, hs]
    exact setTh_last _ _ _ _ _
  rw [h2] at hS'
  obtain ⟨m', hm', he⟩ := (alone_from conv S.files S.hint S.threads r none (emptyMeta fs) hf).1 ⟨hr, rfl⟩
  simp only at he
  rw [he] at hS'
  obtain ⟨g1, g2, g3, g4, _⟩ := wanted_spec r none (emptyMeta fs) m' r.rows (wf_empty fs) hm'
  rw [rows_empty, List.nil_append] at g1
  have g5 := C87_columns_partial r none (emptyMeta fs) m' r.rows rfl fs rfl hm'
  rw [hS']
  refine ⟨by simp, ?_, ⟨m', by simp [setFile, next], g1, g5.1, ?_⟩, ?_⟩
  · simp only [Sys.table, Sys.select, setFile, next, if_true, g1]
  · simp only [wanted, updateMeta, emptyMeta, List.any_nil, Bool.false_eq_true, if_false, Option.some.injEq] at hm'
    rw [← hm']
    exact ⟨rfl, rfl, rfl⟩
  · intro p hp
    exact if_neg hp

/-! ## Interrupted INSERTs -/

/-- The newest metadata were written by an INSERT that ended before it wrote the hint. -/
def Stuck (h0 : Option Nat) (rows0 : List Row) (order : List Nat) (k : Nat) (S : Sys) : Prop :=
  Inv h0 rows0 order k S ∧ k + 1 = order.length ∧ ∃ i t e, order[k]? = some i ∧ S.threads[i]? = some t ∧ t.pc = .failed e

theorem stuck_set (h0 : Option Nat) (rows0 : List Row) (order : List Nat) (k : Nat) (S : Sys) (i : Nat) (t u : Th)
    (hS : Stuck h0 rows0 order k S) (hi : S.threads[i]? = some t) (ht : ∀ e, t.pc ≠ .failed e)
    (hI : Inv h0 rows0 order k (S.setTh i u)) : Stuck h0 rows0 order k (S.setTh i u) := by
  obtain ⟨_, hk, x, w, e, h1, h2, h3⟩ := hS
  refine ⟨hI, hk, x, w, e, h1, ?_, h3⟩
  have hxi : i ≠ x := by
    intro hc
    subst hc
    rw [hi] at h2
    injection h2 with h2
    subst h2
    exact ht e h3
  simp only [Sys.setTh]
  rw [List.getElem?_set_ne hxi]
  exact h2

theorem stuck_apply (conv : String → Option String) (h0 : Option Nat) (rows0 : List Row) (order : List Nat) (k : Nat) (S : Sys)
    (e : Ev) (hS : Stuck h0 rows0 order k S) : Stuck h0 rows0 order k (S.apply conv e) := by
  have hI := hS.1
  -- nobody is about to write the hint
  have hnc : ∀ (i : Nat) (t : Th), S.threads[i]? = some t → ∀ v, t.pc ≠ .committed v := by
    intro i t hi v hp
    have := hI.ths i t hi
    simp only [ThOk, hp] at this
    obtain ⟨_, _, x, w, e, h1, h2, h3⟩ := hS
    rw [h1] at this
    have hx := Option.some.inj this.2.2.1
    subst hx
    rw [hi] at h2
    injection h2 with h2
    subst h2
    rw [hp] at h3
    cases h3
  have hlocal : ∀ (i : Nat) (t : Th), S.threads[i]? = some t → (t.pc = .done ∨ (∃ e, t.pc = .failed e)) ∨
      ((t.pc ≠ .done ∧ ∀ e, t.pc ≠ .failed e) ∧ ∃ u, S.stepTh conv i t = S.setTh i u ∧ u.req = t.req ∧ u.wrote = t.wrote ∧ u.pc ≠ .done ∧
        Inv h0 rows0 order k (S.setTh i u)) := by
    intro i t hi
    rcases inv_step conv h0 rows0 order k S i t hI hi with ⟨h, _, h'⟩ | ⟨hk, _⟩ | ⟨v, h1, _⟩
    · by_cases hd : t.pc = .done ∨ ∃ e, t.pc = .failed e
      · exact Or.inl hd
      · rcases h' with h' | ⟨u, h1, h2, h3, h4⟩ | ⟨e, h'⟩
        · exact absurd (Or.inl h') hd
        · refine Or.inr ⟨⟨fun hc => hd (Or.inl hc), fun e hc => hd (Or.inr ⟨e, hc⟩)⟩, u, h1, h2, h3, h4, ?_⟩
          rw [← h1]; exact h
        · exact absurd (Or.inr ⟨e, h'⟩) hd
    · have := hS.2.1
      omega
    · exact absurd h1 (hnc i t hi v)
  cases e with
  | admit r =>
    obtain ⟨_, hk, x, w, e, h1, h2, h3⟩ := hS
    refine ⟨inv_admit h0 rows0 order k S r hI, hk, x, w, e, h1, ?_, h3⟩
    show (S.threads ++ _)[x]? = some w
    rw [List.getElem?_append_left (lt_of_get h2)]
    exact h2
  | step i =>
    show Stuck h0 rows0 order k (S.step conv i)
    unfold Sys.step
    cases hi : S.threads[i]? with
    | none => exact hS
    | some t =>
      simp only
      rcases hlocal i t hi with hd | ⟨⟨_, hf⟩, u, h1, h2, h3, h4, h5⟩
      · have : S.stepTh conv i t = S := by
          unfold Sys.stepTh
          rcases hd with h | ⟨e, h⟩ <;> rw [h]
        rw [this]; exact hS
      · rw [h1]
        exact stuck_set h0 rows0 order k S i t u hS hi hf h5
  | fail i =>
    show Stuck h0 rows0 order k (S.fail i)
    unfold Sys.fail
    split
    · rename_i hrun
      obtain ⟨t, hi, hd, hf⟩ := running_spec S i hrun
      rw [ended_eq S i t hi]
      exact stuck_set h0 rows0 order k S i t _ hS hi hf
        (inv_local h0 rows0 order k S i t _ hI hi rfl rfl (io_ok _ _ _ _ _ _ (hI.ths i t hi) hd))
    · exact hS
  | lost i =>
    show Stuck h0 rows0 order k (S.lose conv i)
    unfold Sys.lose
    split
    · rename_i hrun
      obtain ⟨t, hi, hd, hf⟩ := running_spec S i hrun
      have hstep : S.step conv i = S.stepTh conv i t := by
        unfold Sys.step
        rw [hi]
      rcases hlocal i t hi with hc | ⟨_, u, h1, h2, h3, h4, h5⟩
      · rcases hc with hc | ⟨e, hc⟩
        · exact absurd hc hd
        · exact absurd hc (hf e)
      · rw [hstep, h1]
        have hu := get_setTh S i t u hi
        rw [ended_eq _ i u hu, setTh_setTh]
        apply stuck_set h0 rows0 order k S i t _ hS hi hf
        have := inv_local h0 rows0 order k _ i u { u with pc := .failed .io } h5 hu rfl rfl (io_ok _ _ _ _ _ _ (h5.ths i u hu) h4)
        rw [setTh_setTh] at this
        exact this
    · exact hS

theorem stuck_run (conv : String → Option String) (h0 : Option Nat) (rows0 : List Row) (order : List Nat) (k : Nat) (es : List Ev) :
    ∀ S : Sys, Stuck h0 rows0 order k S → Stuck h0 rows0 order k (S.run conv es) := by
  induction es with
  | nil => exact fun S h => h
  | cons e es ih => exact fun S h => ih _ (stuck_apply conv h0 rows0 order k S e h)

/-- An INSERT that ended stays as it is. -/
theorem apply_ended (conv : String → Option String) (S : Sys) (e : Ev) (j : Nat) (t : Th) (h : S.threads[j]? = some t)
    (hd : t.pc = .done ∨ ∃ e, t.pc = .failed e) : (S.apply conv e).threads[j]? = some t := by
  have hrun : S.running j = false := by
    unfold Sys.running
    rw [h]
    rcases hd with hd | ⟨e, hd⟩ <;> simp [hd, Pc.running]
  have hset : ∀ (i : Nat) (u : Th), i ≠ j → (S.threads.set i u)[j]? = some t := fun i u hij => by
    rw [List.getElem?_set_ne hij]; exact h
  have hstep : ∀ i, (S.step conv i).threads[j]? = some t := by
    intro i
    unfold Sys.step
    split
    · exact h
    · rename_i u hu
      by_cases hij : i = j
      · subst hij
        rw [h] at hu
        injection hu with hu
        subst hu
        unfold Sys.stepTh
        rcases hd with hd | ⟨e, hd⟩ <;> rw [hd] <;> exact h
      · unfold Sys.stepTh
        split
        · exact hset i _ hij
        · exact hset i _ hij
        · exact hset i _ hij
        · split
          · exact hset i _ hij
          · split
            · exact hset i _ hij
            · exact hset i _ hij
        · exact hset i _ hij
        · exact h
        · exact h
  cases e with
  | admit r =>
    show (S.threads ++ _)[j]? = some t
    rw [List.getElem?_append_left (lt_of_get h)]
    exact h
  | step i => exact hstep i
  | fail i =>
    show (S.fail i).threads[j]? = some t
    unfold Sys.fail
    split
    · rename_i hr
      have hij : i ≠ j := fun hc => by subst hc; rw [hrun] at hr; cases hr
      unfold Sys.ended
      split
      · exact h
      · exact hset i _ hij
    · exact h
  | lost i =>
    show (S.lose conv i).threads[j]? = some t
    unfold Sys.lose
    split
    · rename_i hr
      have hij : i ≠ j := fun hc => by subst hc; rw [hrun] at hr; cases hr
      unfold Sys.ended
      split
      · exact hstep i
      · simp only [Sys.setTh]
        rw [List.getElem?_set_ne hij]
        exact hstep i
    · exact h

theorem run_ended (conv : String → Option String) (es : List Ev) : ∀ (S : Sys) (j : Nat) (t : Th), S.threads[j]? = some t →
    (t.pc = .done ∨ ∃ e, t.pc = .failed e) → (S.run conv es).threads[j]? = some t := by
  induction es with
  | nil => exact fun S j t h _ => h
  | cons e es ih => exact fun S j t h hd => ih _ j t (apply_ended conv S e j t h hd) hd

/-- **C88**: an INSERT that ends between writing its metadata and the hint blocks the table for ever: if the metadata file
after the one of the hint exists, and no running INSERT has written it, then whatever happens later the table keeps
its rows, and no INSERT succeeds any more. -/
theorem C88_blocked (conv : String → Option String) (S0 : Sys) (h0 : Option Nat) (rows0 : List Row) (hw : Whole S0 h0 rows0)
    (ht : S0.threads = []) (es : List Ev) (h : Option Nat) (hh : (S0.run conv es).hint = h.map some)
    (hv : (S0.run conv es).files (.ver (next h)) ≠ none)
    (hc : ∀ t ∈ (S0.run conv es).threads, ∀ v, t.pc ≠ .committed v) (fs : List Ev) :
    ((S0.run conv es).run conv fs).table = (S0.run conv es).table ∧
    ∀ (j : Nat) (u : Th), ((S0.run conv es).run conv fs).threads[j]? = some u → u.pc = .done → (S0.run conv es).threads[j]? = some u := by
  obtain ⟨order, k, _, _, hI⟩ := inv_run conv h0 rows0 es [] 0 S0 (inv_start S0 h0 rows0 hw ht)
  have hhk : h = hintAt h0 k := by
    have := hI.hint
    rw [hh] at this
    cases h <;> cases hq : hintAt h0 k <;> simp_all
  have hwk : next h = next h0 + k := by rw [hhk, next_hintAt]
  have hk : k + 1 = order.length := by
    rcases hI.kle with h1 | h1
    · exact absurd (hI.top (next h) (by omega)) hv
    · exact h1
  have hlt : k < order.length := by omega
  -- INSERTs that wrote metadata have ended
  have hended : ∀ i ∈ order, ∃ t, (S0.run conv es).threads[i]? = some t ∧ (t.pc = .done ∨ ∃ e, t.pc = .failed e) := by
    intro i hi
    obtain ⟨t, hti, hne, _⟩ := hI.mem i hi
    have hth := hI.ths i t hti
    refine ⟨t, hti, ?_⟩
    unfold ThOk at hth
    cases hp : t.pc with
    | start => rw [hp] at hth; exact absurd hth hne
    | hinted _ => rw [hp] at hth; exact absurd hth.1 hne
    | based _ _ => rw [hp] at hth; exact absurd hth.1 hne
    | written _ _ _ => rw [hp] at hth; exact absurd hth.1 hne
    | committed v => exact absurd hp (hc t (List.mem_of_getElem? hti) v)
    | done => exact Or.inl rfl
    | failed e => exact Or.inr ⟨e, rfl⟩
  have hstuck : Stuck h0 rows0 order k (S0.run conv es) := by
    obtain ⟨t, hti, hd⟩ := hended order[k] (List.getElem_mem hlt)
    rcases hd with hd | ⟨e, hd⟩
    · exfalso
      have hth := hI.ths _ t hti
      simp only [ThOk, hd] at hth
      obtain ⟨⟨j, hj, hji⟩, _⟩ := hth
      have hjl : j < order.length := by omega
      have e : order[j]'hjl = order[k]'hlt := by
        rw [List.getElem?_eq_getElem hjl] at hji
        exact Option.some.inj hji
      exact (List.pairwise_iff_getElem.1 hI.nodup) j k hjl hlt hj e
    · exact ⟨hI, hk, order[k], t, e, List.getElem?_eq_getElem hlt, hti, hd⟩
  have hfin := stuck_run conv h0 rows0 order k fs _ hstuck
  refine ⟨?_, ?_⟩
  · rw [inv_table h0 rows0 order k _ hfin.1, inv_table h0 rows0 order k _ hI]
    congr 2
    apply flatMap_ext
    intro i hi
    obtain ⟨t, hti, _⟩ := hI.mem i (List.mem_of_mem_take hi)
    obtain ⟨t', ht', hr⟩ := run_req conv fs _ i t hti
    simp only [Sys.inserted, ht', hti, hr]
  · intro j u hu hp
    have hth := hfin.1.ths j u hu
    simp only [ThOk, hp] at hth
    obtain ⟨⟨x, _, hx⟩, _⟩ := hth
    obtain ⟨t, hti, hd⟩ := hended j (List.mem_of_getElem? hx)
    have := run_ended conv fs _ j t hti hd
    rw [hu] at this
    injection this with this
    subst this
    exact hti

/-! ## Examples and violations -/

def exConv : String → Option String := fun s => if s = "List" then none else some s

def exA : Row := [some ⟨"int", 1⟩]
def exB : Row := [some ⟨"int", 2⟩]
def exC : Row := [some ⟨"int", 3⟩]

/-- A table with one row, one deleted row, and a deletion. -/
def exMeta : Meta :=
  { schemas := [(0, [⟨"a", true, "int"⟩])], schemaId := 0, lastSeq := 2,
    snaps := [⟨7, 0, 1, [⟨.data, 1, [exA, exB]⟩]⟩, ⟨8, 0, 2, [⟨.data, 1, [exA, exB]⟩, ⟨.deletes, 2, [exB]⟩]⟩],
    main := some 8, previous := [] }

def exSys : Sys := ⟨fun p => if p = .ver 3 then some (some exMeta) else none, some (some 3), []⟩

def exReq (sid : Int) (r : Row) : Request := ⟨[⟨"x", false, "int"⟩], [some [r], some []], sid⟩

theorem exWhole : Whole exSys (some 3) [exA] := by
  refine ⟨rfl, ?_, exMeta, rfl, ?_, by decide +kernel⟩
  · intro n hn
    have h1 : (Path.ver n) ≠ .ver 3 := by
      simp only [next] at hn
      intro hc
      injection hc with hc
      omega
    simp [exSys, h1]
  · intro s hs x hx
    have : s = ⟨8, 0, 2, [⟨.data, 1, [exA, exB]⟩, ⟨.deletes, 2, [exB]⟩]⟩ := by
      have h : exMeta.current = some ⟨8, 0, 2, [⟨.data, 1, [exA, exB]⟩, ⟨.deletes, 2, [exB]⟩]⟩ := by decide +kernel
      rw [h] at hs
      injection hs with hs
      exact hs.symm
    subst this
    simp only [List.mem_cons, List.not_mem_nil, or_false] at hx
    rcases hx with hx | hx <;> subst hx <;> decide

/-- The hypotheses of `C87_insert_partial` and `C88_serial` are met by a table with a deletion; the row inserted again after
its deletion is there. -/
example : (exSys.run exConv (alone (exReq 9 exB) 0)).table = some [exA, exB] ∧
    Matches exConv (exReq 9 exB).schema exMeta.schema ∧ (exReq 9 exB).Runs := by
  refine ⟨by decide +kernel, .cons (by decide) (by decide) .nil, ?_⟩
  intro b hb
  simp only [exReq, List.mem_cons, List.not_mem_nil, or_false] at hb
  rcases hb with hb | hb <;> subst hb <;> simp

/-- Three INSERTs at the same time: one wins, the second is refused, the third starts later. -/
example : (exSys.run exConv [.admit (exReq 9 exB), .admit (exReq 10 exC), .step 0, .step 1, .step 0, .step 1, .step 1, .step 0,
      .step 1, .step 0, .step 1, .admit (exReq 11 exA), .step 2, .step 2, .step 2, .step 2, .step 2]).table = some [exA, exC, exA] ∧
    ((exSys.run exConv [.admit (exReq 9 exB), .admit (exReq 10 exC), .step 0, .step 1, .step 0, .step 1, .step 1, .step 0,
      .step 1, .step 0, .step 1, .admit (exReq 11 exA), .step 2, .step 2, .step 2, .step 2, .step 2]).threads.map (·.pc)) =
      [.failed .concurrency, .done, .done] := by
  refine ⟨by decide +kernel, by decide +kernel⟩

/-- **C88 violated**: one INSERT ends after it wrote its metadata (its process stops, or writing the hint fails); after that no
INSERT into the table ever succeeds, though nothing else went wrong. -/
theorem C88_violated : ∃ es, (∀ r, Ev.admit r ∈ es → Matches exConv r.schema exMeta.schema) ∧
    ∀ (fs : List Ev) (j : Nat) (u : Th), ((exSys.run exConv es).run exConv fs).threads[j]? = some u → u.pc ≠ .done := by
  refine ⟨[.admit (exReq 9 exB), .step 0, .step 0, .step 0, .step 0, .fail 0], ?_, ?_⟩
  · intro r hr
    have : r = exReq 9 exB := by simpa using hr
    subst this
    exact .cons (by decide) (by decide) .nil
  · intro fs j u hu hp
    have := (C88_blocked exConv exSys (some 3) [exA] exWhole rfl _ (some 3) (by decide +kernel) (by decide +kernel)
      (by intro t ht v; have : t = ⟨exReq 9 exB, .failed .io, some 4⟩ := by
            have h : (exSys.run exConv [.admit (exReq 9 exB), .step 0, .step 0, .step 0, .step 0, .fail 0]).threads =
              [⟨exReq 9 exB, .failed .io, some 4⟩] := by decide +kernel
            rw [h] at ht
            simpa using ht
          subst this
          simp) fs).2 j u hu hp
    have h : (exSys.run exConv [.admit (exReq 9 exB), .step 0, .step 0, .step 0, .step 0, .fail 0]).threads =
      [⟨exReq 9 exB, .failed .io, some 4⟩] := by decide +kernel
    rw [h] at this
    have hm := List.mem_of_getElem? this
    simp only [List.mem_singleton] at hm
    subst hm
    cases hp

/-- **C87 violated**: an INSERT reports an error although its rows are in the table (the answer to the last write gets lost, or
the connection breaks); the client that tries again inserts the rows twice. -/
theorem C87_violated_retry :
    (exSys.run exConv [.admit (exReq 9 exB), .step 0, .step 0, .step 0, .step 0, .lost 0]).threads.map (·.pc) = [.failed .io] ∧
    (exSys.run exConv [.admit (exReq 9 exB), .step 0, .step 0, .step 0, .step 0, .lost 0]).table = some [exA, exB] ∧
    (exSys.run exConv ([.admit (exReq 9 exB), .step 0, .step 0, .step 0, .step 0, .lost 0] ++ alone (exReq 10 exB) 1)).table =
      some [exA, exB, exB] := by
  refine ⟨by decide +kernel, by decide +kernel, by decide +kernel⟩

/-- How far an INSERT is. -/
def Pc.rank : Pc → Nat
  | .start | .failed _ => 0
  | .hinted _ => 1
  | .based _ _ => 2
  | .written _ _ _ => 3
  | .committed _ => 4
  | .done => 5

theorem rank_step (conv : String → Option String) (S : Sys) (i : Nat) (t : Th) (h : S.threads[i]? = some t) :
    ∃ t', (S.step conv i).threads[i]? = some t' ∧ t'.pc.rank ≤ t.pc.rank + 1 := by
  have hset : ∀ (fs : Path → Option (Option Meta)) (hi : Option (Option Nat)) (u : Th),
      (Sys.setTh ⟨fs, hi, S.threads⟩ i u).threads[i]? = some u := by
    intro fs hi u
    simp [Sys.setTh, lt_of_get h]
  unfold Sys.step
  rw [h]
  simp only [Sys.stepTh]
  cases hp : t.pc with
  | start =>
    refine ⟨_, hset _ _ _, ?_⟩
    simp only [readHint]
    split <;> simp [Pc.rank]
  | hinted hh =>
    refine ⟨_, hset _ _ _, ?_⟩
    simp only [readMeta]
    repeat' split
    all_goals simp [Pc.rank]
  | based hh m =>
    refine ⟨_, hset _ _ _, ?_⟩
    simp only [writeData]
    repeat' split
    all_goals simp [Pc.rank]
  | written hh m rows =>
    simp only
    split
    · exact ⟨_, hset _ _ _, by simp [Pc.rank]⟩
    · split
      · exact ⟨_, hset _ _ _, by simp [Pc.rank]⟩
      · exact ⟨_, hset _ _ _, by simp [Pc.rank]⟩
  | committed v => exact ⟨_, hset _ _ _, by simp [Pc.rank]⟩
  | done => exact ⟨t, h, by rw [hp]; simp⟩
  | failed e => exact ⟨t, h, by rw [hp]; simp⟩

/-- An access that takes effect and is reported as failed leaves the files as if it had succeeded. -/
theorem lose_files (conv : String → Option String) (S : Sys) (i : Nat) (h : S.running i = true) :
    (S.lose conv i).files = (S.step conv i).files ∧ (S.lose conv i).hint = (S.step conv i).hint ∧
      ((S.lose conv i).threads[i]?).map (·.pc) = some (.failed .io) ∧ (S.lose conv i).threads.length = S.threads.length := by
  obtain ⟨t, ht, _⟩ : ∃ t, S.threads[i]? = some t ∧ True := by
    unfold Sys.running at h
    cases hx : S.threads[i]? with
    | none => rw [hx] at h; cases h
    | some t => exact ⟨t, rfl, trivial⟩
  obtain ⟨t', ht', _⟩ := rank_step conv S i t ht
  have hl : (S.step conv i).threads.length = S.threads.length := by
    unfold Sys.step
    rw [ht]
    simp only [Sys.stepTh]
    repeat' split
    all_goals simp [Sys.setTh]
  unfold Sys.lose
  rw [if_pos h, ended_eq _ _ _ ht']
  refine ⟨rfl, rfl, ?_, ?_⟩
  · simp [Sys.setTh, lt_of_get ht']
  · simp [Sys.setTh, hl]

/-- The last access of an INSERT that runs alone takes effect but is reported as failed. -/
def aloneLost (r : Request) (i : Nat) : List Ev := [.admit r, .step i, .step i, .step i, .step i, .lost i]

/-- **C87 violated, always**: every INSERT that would succeed may report an error although its rows are in the table; if the
client tries again, the rows are in the table twice. -/
theorem C87_violated_retry_always (conv : String → Option String) (S : Sys) (v : Nat) (m : Meta) (r r' : Request)
    (hh : S.hint = some (some v)) (hm : S.files (.ver v) = some (some m)) (hw : WF m)
    (hf : ∀ n, v < n → S.files (.ver n) = none)
    (ok : Matches conv r.schema m.schema ∧ r.Runs ∧ ∀ s ∈ m.snaps, s.id ≠ r.sid)
    (hr : r'.schema = r.schema ∧ r'.batches = r.batches) (hid : r'.sid ≠ r.sid ∧ ∀ s ∈ m.snaps, s.id ≠ r'.sid) :
    let n := S.threads.length
    let S1 := S.run conv (aloneLost r n)
    (S1.threads[n]?).map (·.pc) = some (.failed .io) ∧ S1.table = some (rowsOf m ++ r.rows) ∧
    ((S1.run conv (alone r' (n + 1))).threads[n + 1]?).map (·.pc) = some .done ∧
    (S1.run conv (alone r' (n + 1))).table = some (rowsOf m ++ r.rows ++ r.rows) := by
  intro n S1
  obtain ⟨g, _⟩ := C87_insert_partial conv S v m r hh hm hw (hf _ (by omega))
  obtain ⟨g1, g2, g3, g4, m', s, g5, g6, g7, g8, g9, g10, g11, g12, g13, g14, g15⟩ := g ok
  let S4 := S.run conv [.admit r, .step n, .step n, .step n, .step n]
  have e5 : S.run conv (alone r n) = S4.step conv n := rfl
  have e1 : S1 = S4.lose conv n := rfl
  have h0 : (S.run conv [.admit r]).threads[n]? = some ⟨r, .start, none⟩ := by
    simp [Sys.run, Sys.apply, n]
  obtain ⟨t1, h1, r1⟩ := rank_step conv _ n _ h0
  obtain ⟨t2, h2, r2⟩ := rank_step conv _ n _ h1
  obtain ⟨t3, h3, r3⟩ := rank_step conv _ n _ h2
  obtain ⟨t4, h4, r4⟩ := rank_step conv _ n _ h3
  have h4' : S4.threads[n]? = some t4 := h4
  have hlt : t4.pc.rank ≤ 4 := by
    have r0 : Pc.start.rank = 0 := rfl
    rw [r0] at r1
    omega
  have hrun : S4.running n = true := by
    unfold Sys.running
    rw [h4']
    simp only
    cases hp : t4.pc with
    | done => rw [hp] at hlt; simp [Pc.rank] at hlt
    | failed e =>
      have : S4.step conv n = S4 := by
        unfold Sys.step
        rw [h4']
        simp only [Sys.stepTh, hp]
      rw [e5, this, h4'] at g1
      simp [hp] at g1
    | _ => rfl
  obtain ⟨f1, f2, f3, f4⟩ := lose_files conv S4 n hrun
  rw [← e1] at f1 f2 f3 f4
  have htab : ∀ A B : Sys, A.files = B.files → A.hint = B.hint → A.table = B.table := by
    intro A B ha hb
    simp only [Sys.table, Sys.select, ha, hb]
  have hlen4 : S4.threads.length = n + 1 := by
    have hst : ∀ X : Sys, (X.step conv n).threads.length = X.threads.length := by
      intro X
      unfold Sys.step
      cases X.threads[n]? with
      | none => rfl
      | some t =>
        simp only [Sys.stepTh]
        repeat' split
        all_goals simp [Sys.setTh]
    show (Sys.step conv (Sys.step conv (Sys.step conv (Sys.step conv (S.run conv [.admit r]) n) n) n) n).threads.length = _
    rw [hst, hst, hst, hst]
    simp [Sys.run, Sys.apply, n]
  have hS1 : S1.threads.length = n + 1 := by rw [f4, hlen4]
  have hfiles : S1.files = (S.run conv (alone r n)).files := f1
  have hhint : S1.hint = (S.run conv (alone r n)).hint := f2
  refine ⟨f3, by rw [htab S1 _ hfiles hhint]; exact g4, ?_⟩
  have hfree : S1.files (.ver (v + 1 + 1)) = none := by
    rw [hfiles]
    have := g3 (.ver (v + 2)) (by simp)
    exact this.trans (hf _ (by omega))
  have hms : m'.schema = m.schema := by simp only [Meta.schema, g8, g9]
  have ok' : Matches conv r'.schema m'.schema ∧ r'.Runs ∧ ∀ s ∈ m'.snaps, s.id ≠ r'.sid := by
    refine ⟨by rw [hr.1, hms]; exact ok.1, by simpa only [Request.Runs, hr.2] using ok.2.1, ?_⟩
    intro x hx
    rw [g10] at hx
    rcases List.mem_append.1 hx with hx | hx
    · exact hid.2 x hx
    · simp only [List.mem_singleton] at hx
      subst hx
      rw [g12]
      exact fun e => hid.1 e.symm
  obtain ⟨k, _⟩ := C87_insert_partial conv S1 (v + 1) m' r' (by rw [hhint]; exact g2) (by rw [hfiles]; exact g5) g6 hfree
  rw [hS1] at k
  obtain ⟨k1, _, _, k4, _⟩ := k ok'
  refine ⟨k1, ?_⟩
  rw [k4, g7]
  simp only [Request.rows, hr.2]

example : (Matches exConv (exReq 9 exB).schema exMeta.schema ∧ (exReq 9 exB).Runs ∧ ∀ s ∈ exMeta.snaps, s.id ≠ (exReq 9 exB).sid) ∧
    (exReq 10 exB).sid ≠ (exReq 9 exB).sid := by
  refine ⟨⟨?_, ?_, ?_⟩, by decide⟩
  · rw [← aligned_iff]; decide +kernel
  · intro b hb; simp [exReq] at hb; rcases hb with rfl | rfl <;> simp
  · decide +kernel

/-- A table of another catalog: its metadata file has another name, and there is no hint. -/
def exOther : Sys := ⟨fun p => if p = .other "00001-a.metadata.json" then some (some exMeta) else none, none, []⟩

/-- **C87 violated**: an INSERT into such a table succeeds with columns the table does not have; its rows are in a new table
without the old ones, and the name of the catalog shows the old ones only. -/
theorem C87_violated_no_hint : ∃ r, ¬ Matches exConv r.schema exMeta.schema ∧
    ((exOther.run exConv (alone r 0)).threads.map (·.pc) = [.done]) ∧
    (exOther.run exConv (alone r 0)).select (.other "00001-a.metadata.json") = some [exA] ∧
    (exOther.run exConv (alone r 0)).table = some [[some ⟨"string", 5⟩, none]] := by
  refine ⟨⟨[⟨"s", false, "string"⟩, ⟨"t", true, "int"⟩], [some [[some ⟨"string", 5⟩, none]]], 9⟩, ?_, by decide +kernel,
    by decide +kernel, by decide +kernel⟩
  rw [← aligned_iff]
  decide +kernel

/-- A table whose columns were changed: the schema with id 1 is the current one. -/
def exEvolved (old : List (Nat × List Field)) : Meta :=
  { schemas := old ++ [(1, [⟨"a", true, "int"⟩, ⟨"b", false, "int"⟩])], schemaId := 1, lastSeq := 1,
    snaps := [⟨7, 1, 1, [⟨.data, 1, [[some ⟨"int", 1⟩, some ⟨"int", 2⟩]]⟩]⟩], main := some 7, previous := [] }

/-- **C87 violated**: the snapshot of an INSERT always names schema 0.  A table with a newer schema shows its old columns
after an INSERT, and if the old schema is gone it cannot be read any more. -/
theorem C87_violated_columns :
    (∃ m', wanted (exReq 9 exB) (some 3) (exEvolved [(0, [⟨"a", true, "int"⟩])]) [] = some m' ∧
      columns (exEvolved [(0, [⟨"a", true, "int"⟩])]) = some [⟨"a", true, "int"⟩, ⟨"b", false, "int"⟩] ∧
      columns m' = some [⟨"a", true, "int"⟩]) ∧
    ∃ m', wanted (exReq 9 exB) (some 3) (exEvolved []) [] = some m' ∧
      columns (exEvolved []) = some [⟨"a", true, "int"⟩, ⟨"b", false, "int"⟩] ∧ columns m' = none := by
  refine ⟨⟨_, rfl, by decide +kernel, by decide +kernel⟩, ⟨_, rfl, by decide +kernel, by decide +kernel⟩⟩

/-- The hint or the metadata file it names cannot be read. -/
def Damaged (files : Path → Option (Option Meta)) (hint : Option (Option Nat)) : Prop :=
  hint = some none ∨ ∃ v, hint = some (some v) ∧ ∀ m, files (.ver v) ≠ some (some m)

/-- What an INSERT into a damaged table can have come to. -/
def Halted (hint : Option (Option Nat)) : Pc → Prop
  | .start => True
  | .hinted (some v) => hint = some (some v)
  | .failed _ => True
  | _ => False

/-- **C87**: INSERTs into a table whose hint or metadata file is damaged leave all files as they are, and none of them
is reported as done, at any time of any execution. -/
theorem C87_damaged (conv : String → Option String) (S : Sys) (hd : Damaged S.files S.hint) (ht : S.threads = []) (es : List Ev) :
    (S.run conv es).files = S.files ∧ (S.run conv es).hint = S.hint ∧ ∀ t ∈ (S.run conv es).threads, t.pc ≠ .done := by
  have step : ∀ (T : Sys), T.files = S.files → T.hint = S.hint → (∀ t ∈ T.threads, Halted S.hint t.pc) → ∀ e,
      (T.apply conv e).files = S.files ∧ (T.apply conv e).hint = S.hint ∧ ∀ t ∈ (T.apply conv e).threads, Halted S.hint t.pc := by
    intro T h1 h2 h3 e
    have hset : ∀ (U : Sys) i t, U.files = S.files → U.hint = S.hint → (∀ t ∈ U.threads, Halted S.hint t.pc) → Halted S.hint t.pc →
        (U.setTh i t).files = S.files ∧ (U.setTh i t).hint = S.hint ∧ ∀ x ∈ (U.setTh i t).threads, Halted S.hint x.pc := by
      intro U i t g1 g2 g3 g4
      refine ⟨g1, g2, fun x hx => ?_⟩
      rcases List.mem_or_eq_of_mem_set hx with h | h
      · exact g3 x h
      · rw [h]; exact g4
    have hstep : ∀ i, (T.step conv i).files = S.files ∧ (T.step conv i).hint = S.hint ∧
        ∀ t ∈ (T.step conv i).threads, Halted S.hint t.pc := by
      intro i
      unfold Sys.step
      split
      · exact ⟨h1, h2, h3⟩
      rename_i t hti
      have hs := h3 t (List.mem_of_getElem? hti)
      unfold Sys.stepTh
      split
      · refine hset T i _ h1 h2 h3 ?_
        rw [h2]
        unfold readHint
        rcases hd with hd | ⟨v, hv, _⟩
        · rw [hd]; exact trivial
        · rw [hv]; rfl
      · rename_i h hpc
        rw [hpc] at hs
        refine hset T i _ h1 h2 h3 ?_
        cases h with
        | none => exact absurd hs (by simp [Halted])
        | some v =>
          have hs' : S.hint = some (some v) := hs
          rcases hd with hd | ⟨v', hv, hf⟩
          · rw [hd] at hs'; cases hs'
          · rw [hv] at hs'
            injection hs' with hs'
            injection hs' with hs'
            subst hs'
            unfold readMeta
            rw [h1]
            simp only
            split
            · exact trivial
            · exact trivial
            · rename_i m hm; exact absurd hm (hf m)
      · rename_i hpc; rw [hpc] at hs; exact absurd hs (by simp [Halted])
      · rename_i hpc; rw [hpc] at hs; exact absurd hs (by simp [Halted])
      · rename_i hpc; rw [hpc] at hs; exact absurd hs (by simp [Halted])
      · exact ⟨h1, h2, h3⟩
      · exact ⟨h1, h2, h3⟩
    have hended : ∀ (U : Sys) i, U.files = S.files → U.hint = S.hint → (∀ t ∈ U.threads, Halted S.hint t.pc) →
        (U.ended i).files = S.files ∧ (U.ended i).hint = S.hint ∧ ∀ t ∈ (U.ended i).threads, Halted S.hint t.pc := by
      intro U i g1 g2 g3
      unfold Sys.ended
      split
      · exact ⟨g1, g2, g3⟩
      · exact hset U i _ g1 g2 g3 trivial
    cases e with
    | admit r =>
      refine ⟨h1, h2, fun t htm => ?_⟩
      rcases List.mem_append.1 htm with h | h
      · exact h3 t h
      · rw [List.mem_singleton.1 h]; exact trivial
    | step i => exact hstep i
    | fail i =>
      show (T.fail i).files = _ ∧ _
      simp only [Sys.apply, Sys.fail]
      split
      · exact hended T i h1 h2 h3
      · exact ⟨h1, h2, h3⟩
    | lost i =>
      simp only [Sys.apply, Sys.lose]
      split
      · obtain ⟨a, b, c⟩ := hstep i
        exact hended _ i a b c
      · exact ⟨h1, h2, h3⟩
  have key : ∀ (es : List Ev) (T : Sys), T.files = S.files → T.hint = S.hint → (∀ t ∈ T.threads, Halted S.hint t.pc) →
      (T.run conv es).files = S.files ∧ (T.run conv es).hint = S.hint ∧ ∀ t ∈ (T.run conv es).threads, Halted S.hint t.pc := by
    intro es
    induction es with
    | nil => intro T h1 h2 h3; exact ⟨h1, h2, h3⟩
    | cons e es ih =>
      intro T h1 h2 h3
      obtain ⟨a, b, c⟩ := step T h1 h2 h3 e
      exact ih _ a b c
  obtain ⟨a, b, c⟩ := key es S rfl rfl (by rw [ht]; intro t h; cases h)
  refine ⟨a, b, fun t htm hpc => ?_⟩
  have := c t htm
  rw [hpc] at this
  exact this

/-- The reported errors for an unreadable hint and for a missing metadata file. -/
example : Damaged exSys.files (some none) ∧ Damaged (fun _ => none) exSys.hint ∧
    ((⟨exSys.files, some none, []⟩ : Sys).run exConv (alone (exReq 9 exB) 0)).threads.map (·.pc) = [.failed .invalid] ∧
    ((⟨fun _ => none, exSys.hint, []⟩ : Sys).run exConv (alone (exReq 9 exB) 0)).threads.map (·.pc) = [.failed .io] := by
  refine ⟨Or.inl rfl, Or.inr ⟨3, rfl, fun m => by simp⟩, by decide +kernel, by decide +kernel⟩

end Seafowl.Iceberg
