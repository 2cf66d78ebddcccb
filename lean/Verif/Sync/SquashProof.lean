import Verif.Sync.DataSpec
import Verif.Sync.WriterLemmas

/-! # Squashing refines sequential application (helper lemmas for C12, C13) -/

namespace Seafowl.Sync

theorem alGet_alInsert {κ α : Type} [DecidableEq κ] (k k' : κ) (a : α) (l : List (κ × α))
    (hn : (l.map (·.1)).Nodup) :
    alGet k' (alInsert k a l) = if k' = k then some a else alGet k' l := by
  simp only [alInsert, alGet]
  by_cases h : k' = k
  · simp [h]
  · rw [if_neg (fun h' => h h'.symm), if_neg h, alGet_alErase _ _ _ hn, if_neg h]

theorem alErase_nodup {κ α : Type} [DecidableEq κ] (k : κ) (l : List (κ × α))
    (hn : (l.map (·.1)).Nodup) : ((alErase k l).map (·.1)).Nodup :=
  List.Sublist.nodup (alErase_keys_sublist k l) hn

theorem alInsert_nodup {κ α : Type} [DecidableEq κ] (k : κ) (a : α) (l : List (κ × α))
    (hn : (l.map (·.1)).Nodup) : ((alInsert k a l).map (·.1)).Nodup := by
  simp only [alInsert, List.map_cons, List.nodup_cons]
  refine ⟨?_, alErase_nodup k l hn⟩
  rw [← alGet_none_iff, alGet_alErase _ _ _ hn, if_pos rfl]

theorem toKey_eq_none {k : Key} : toKey k = none ↔ ∀ c ∈ k, c = none := by
  simp [toKey, List.all_eq_true]

theorem toKey_eq_some {k k' : Key} : toKey k = some k' ↔ k = k' ∧ ∃ c ∈ k, c ≠ none := by
  simp only [toKey]
  split
  · next h =>
    simp only [List.all_eq_true, Option.isNone_iff_eq_none] at h
    constructor
    · intro h'; cases h'
    · rintro ⟨_, c, h1, h2⟩; exact absurd (h c h1) h2
  · next h =>
    simp only [List.all_eq_true, Option.isNone_iff_eq_none] at h
    constructor
    · intro h'; injection h' with h'
      refine ⟨h', ?_⟩
      by_cases hc : ∃ c ∈ k, c ≠ none
      · exact hc
      · exfalso; apply h
        intro x hx
        by_cases hx' : x = none
        · exact hx'
        · exact absurd ⟨x, hx, hx'⟩ hc
    · rintro ⟨h', _⟩; rw [h']

variable {pks full : List String} {S : Schema}

theorem toKey_map_none {f : String → Cell} : toKey (pks.map f) = none ↔ pks.map f = pks.map (fun _ => none) := by
  rw [toKey_eq_none]
  constructor
  · intro h
    apply List.map_congr_left
    intro n hn
    exact h _ (List.mem_map.2 ⟨n, hn, rfl⟩)
  · intro h c hc
    obtain ⟨n, hn, rfl⟩ := List.mem_map.1 hc
    have := (List.map_inj_left.1 h) n hn
    exact this

/-- Old key and null key in terms of the change. -/
theorem SchemaOk.old_none (hS : SchemaOk pks S) (r : Row) :
    oldKey S r = nullKey S ↔ (changeOf pks S r).old = none := by
  simp only [oldKey, nullKey, changeOf, hS.oldPk]
  exact toKey_map_none.symm

theorem SchemaOk.new_none (hS : SchemaOk pks S) (r : Row) :
    newKey S r = nullKey S ↔ (changeOf pks S r).new = none := by
  simp only [newKey, nullKey, changeOf, hS.oldPk, hS.newPk]
  exact toKey_map_none.symm

theorem SchemaOk.old_some (hS : SchemaOk pks S) {r : Row} (h : (changeOf pks S r).old ≠ none) :
    (changeOf pks S r).old = some (oldKey S r) := by
  cases h' : (changeOf pks S r).old with
  | none => exact absurd h' h
  | some k =>
    simp only [changeOf] at h'
    obtain ⟨h1, _⟩ := toKey_eq_some.1 h'
    rw [oldKey, hS.oldPk, h1]

theorem SchemaOk.new_some (hS : SchemaOk pks S) {r : Row} (h : (changeOf pks S r).new ≠ none) :
    (changeOf pks S r).new = some (newKey S r) := by
  cases h' : (changeOf pks S r).new with
  | none => exact absurd h' h
  | some k =>
    simp only [changeOf] at h'
    obtain ⟨h1, _⟩ := toKey_eq_some.1 h'
    rw [newKey, hS.newPk, h1]

theorem mem_names {S : Schema} {role : Role} {n : String} : n ∈ names S role ↔ Desc.mk role n ∈ S := by
  simp only [names, List.mem_map, List.mem_filter, decide_eq_true_eq]
  constructor
  · rintro ⟨d, ⟨h1, h2⟩, rfl⟩; cases d; simp only at h2; subst h2; exact h1
  · intro h; exact ⟨_, ⟨h, rfl⟩, rfl⟩

/-- The change of a chain. -/
def chainChange (pks : List String) (S : Schema) (ch : Chain) : Change := changeOf pks S (sqOut S ch)

theorem chainChange_old (ch : Chain) : (chainChange pks S ch).old = (changeOf pks S ch.first).old := rfl
theorem chainChange_new (ch : Chain) : (chainChange pks S ch).new = (changeOf pks S ch.last).new := rfl

/-- All Changed columns are taken from the same row. -/
def Uniform (S : Schema) (ch : Chain) : Prop := ∃ rw, ch.chg = (names S .changed).map (fun _ => rw)

theorem uniform_single (r : Row) : Uniform S (Chain.single S r) := ⟨r, rfl⟩

theorem chainChange_single (r : Row) : chainChange pks S (Chain.single S r) = changeOf pks S r := by
  have : sqOut S (Chain.single S r) = r := by
    funext d
    have hh : (Chain.single S r).chg.headD (Chain.single S r).last = r := by
      simp only [Chain.single]
      cases names S .changed <;> rfl
    simp only [sqOut]
    split <;> (try rw [hh]) <;> first | rfl | (split <;> rfl)
  rw [chainChange, this]

theorem headD_map_const {α β : Type} (l : List α) (h : l ≠ []) (b d : β) :
    (l.map (fun _ => b)).headD d = b := by
  cases l with
  | nil => exact absurd rfl h
  | cons a as => rfl

theorem extend_uniform {ch : Chain} {r : Row} (hu : Uniform S ch)
    (hf : ∀ c c', Desc.mk .changed c ∈ S → Desc.mk .changed c' ∈ S →
      isTrue (r ⟨.changed, c⟩) = isTrue (r ⟨.changed, c'⟩)) :
    Uniform S (ch.extend S r) := by
  obtain ⟨rw, h⟩ := hu
  refine ⟨if (names S .changed).any (fun c => isTrue (r ⟨.changed, c⟩)) then r else rw, ?_⟩
  simp only [Chain.extend, h, List.zipWith_map_left, List.zipWith_self]
  apply List.map_congr_left
  intro c hc
  have hc' := mem_names.1 hc
  cases ht : isTrue (r ⟨.changed, c⟩) with
  | true =>
    have : (names S .changed).any (fun c => isTrue (r ⟨.changed, c⟩)) = true :=
      List.any_eq_true.2 ⟨c, hc, ht⟩
    simp [this]
  | false =>
    have : (names S .changed).any (fun c => isTrue (r ⟨.changed, c⟩)) = false := by
      apply List.any_eq_false.2
      intro x hx
      rw [hf x c (mem_names.1 hx) hc', ht]; simp
    simp [this]

/-- Extending a chain composes the assignments. -/
theorem extend_set {ch : Chain} {r : Row} (hu : Uniform S ch)
    (hf : ∀ c c', Desc.mk .changed c ∈ S → Desc.mk .changed c' ∈ S →
      isTrue (r ⟨.changed, c⟩) = isTrue (r ⟨.changed, c'⟩)) (c : String) :
    (chainChange pks S (ch.extend S r)).set c =
      ((changeOf pks S r).set c).or ((chainChange pks S ch).set c) := by
  obtain ⟨rw, h⟩ := hu
  simp only [chainChange, changeOf]
  by_cases hp : c ∈ pks
  · simp only [hp, if_true, Option.some_or]
    rfl
  · simp only [hp, if_false]
    by_cases hv : Desc.mk .value c ∈ S
    · simp only [hv, if_true]
      by_cases hc : Desc.mk .changed c ∈ S
      · simp only [hc, if_true]
        have hmem : c ∈ names S .changed := mem_names.2 hc
        have hne : names S .changed ≠ [] := by intro h0; rw [h0] at hmem; simp at hmem
        -- the head of the extended chain's rows
        have hext : (ch.extend S r).chg.headD (ch.extend S r).last =
            if isTrue (r ⟨.changed, c⟩) then r else rw := by
          simp only [Chain.extend, h, List.zipWith_map_left, List.zipWith_self]
          cases hl : names S .changed with
          | nil => exact absurd hl hne
          | cons x xs =>
            simp only [List.map_cons, List.headD_cons]
            rw [hf x c (mem_names.1 (by rw [hl]; simp)) hc]
        have hold : ch.chg.headD ch.last = rw := by rw [h]; exact headD_map_const _ hne _ _
        have h1 : ∀ d : Desc, d.role = .changed ∨ (d.role = .value ∧ d.name = c) →
            sqOut S (ch.extend S r) d = (if isTrue (r ⟨.changed, c⟩) then r else rw) d := by
          rintro ⟨role, name⟩ (hd | ⟨hd, hn⟩)
          · simp only at hd; subst hd; simp only [sqOut, hext]
          · simp only at hd hn; subst hd; subst hn
            simp only [sqOut, has, hc, decide_true, if_true, hext]
        have h2 : ∀ d : Desc, d.role = .changed ∨ (d.role = .value ∧ d.name = c) →
            sqOut S ch d = rw d := by
          rintro ⟨role, name⟩ (hd | ⟨hd, hn⟩)
          · simp only at hd; subst hd; simp only [sqOut, hold]
          · simp only at hd hn; subst hd; subst hn
            simp only [sqOut, has, hc, decide_true, if_true, hold]
        rw [h1 ⟨.changed, c⟩ (Or.inl rfl), h1 ⟨.value, c⟩ (Or.inr ⟨rfl, rfl⟩),
          h2 ⟨.changed, c⟩ (Or.inl rfl), h2 ⟨.value, c⟩ (Or.inr ⟨rfl, rfl⟩)]
        by_cases ht : r ⟨.changed, c⟩ = some (.bool true)
        · simp [ht, isTrue]
        · simp [ht, isTrue]
      · simp only [hc, if_false, Option.some_or]
        simp [sqOut, has, hc, Chain.extend]
    · simp [hv]

theorem write_or (b : TRow) (s s' : String → Option Cell) :
    write full b (fun c => (s' c).or (s c)) = write full (write full b s) s' := by
  funext c
  simp only [write]
  split
  · cases s' c <;> simp
  · rfl

/-! ### the loop invariant -/

open Classical in
/-- What holds after the loop has processed a prefix of the rows: `T0` is the table before, `T` the
table after applying the prefix one by one. -/
structure SqInv (pks full : List String) (S : Schema) (T0 T : Table) (st : SqState) : Prop where
  nodup : (st.pk.map (·.1)).Nodup
  sound : ∀ (k : Key) (id : Nat), alGet k st.pk = some id → ∃ ch, st.chains[id]? = some ch ∧
    (chainChange pks S ch).new = some k
  complete : ∀ (id : Nat) (ch : Chain) (k : Key), st.chains[id]? = some ch → (chainChange pks S ch).new = some k →
    alGet k st.pk = some id
  live : ∀ (id : Nat) (ch : Chain) (k : Key), st.chains[id]? = some ch → (chainChange pks S ch).new = some k →
    Uniform S ch ∧
    T k = some (write full (baseOf T0 (chainChange pks S ch).old) (chainChange pks S ch).set)
  olds : ∀ (id id' : Nat) (ch ch' : Chain), st.chains[id]? = some ch → st.chains[id']? = some ch' →
    (chainChange pks S ch).old ≠ none → (chainChange pks S ch).old = (chainChange pks S ch').old →
    id = id'
  exist : ∀ (id : Nat) (ch : Chain) (k : Key), st.chains[id]? = some ch → (chainChange pks S ch).old = some k → (T0 k).isSome
  rest : ∀ k : Key, (∀ (id : Nat) (ch : Chain), st.chains[id]? = some ch → (chainChange pks S ch).new ≠ some k) →
    T k = if ∃ (id : Nat) (ch : Chain), st.chains[id]? = some ch ∧ (chainChange pks S ch).old = some k then none
      else T0 k
  free : ∀ (id : Nat) (ch : Chain) (k : Key), st.chains[id]? = some ch → (chainChange pks S ch).new = some k →
    T0 k = none ∨ ∃ (id' : Nat) (ch' : Chain), st.chains[id']? = some ch' ∧ (chainChange pks S ch').old = some k
  temp : ∀ id ∈ st.temp, ∀ ch, st.chains[id]? = some ch →
    (chainChange pks S ch).old = none ∧ (chainChange pks S ch).new = none
  templt : ∀ id ∈ st.temp, id < st.chains.length

theorem SqInv.start (T : Table) : SqInv pks full S T T { chains := [], temp := [], pk := [] } := by
  constructor <;> simp [alGet]

open Classical in
theorem SqInv.step (hS : SchemaOk pks S) {T0 T : Table} {st : SqState} (h : SqInv pks full S T0 T st)
    (r : Row) (hv : Valid1 T (changeOf pks S r))
    (hf : (changeOf pks S r).old ≠ none → (changeOf pks S r).new ≠ none →
      ∀ c c', Desc.mk .changed c ∈ S → Desc.mk .changed c' ∈ S →
        isTrue (r ⟨.changed, c⟩) = isTrue (r ⟨.changed, c'⟩)) :
    SqInv pks full S T0 (apply1 full T (changeOf pks S r)) (sqStep S st r) := by
  simp only [sqStep]
  split
  · next id hid =>
    -- the row continues a chain
    obtain ⟨ch, hch, hnew⟩ := h.sound _ _ hid
    rw [hch]
    simp only
    -- the old key is not null
    have hold : (changeOf pks S r).old = some (oldKey S r) := by
      apply hS.old_some
      intro h0
      have h1 := (hS.old_none r).2 h0
      rw [chainChange_new] at hnew
      simp only [changeOf] at hnew
      obtain ⟨h2, c, h3, h4⟩ := toKey_eq_some.1 hnew
      rw [h2, h1, nullKey] at h3
      obtain ⟨_, _, h5⟩ := List.mem_map.1 h3
      exact h4 h5.symm
    have hlt : id < st.chains.length := (List.getElem?_eq_some_iff.1 hch).1
    have hget : ∀ id', (st.chains.set id (ch.extend S r))[id']? =
        if id' = id then some (ch.extend S r) else st.chains[id']? := by
      intro id'
      rw [List.getElem?_set]
      by_cases he : id = id'
      · subst he; simp [hlt]
      · rw [if_neg he, if_neg (fun h => he h.symm)]
    obtain ⟨huni, hT⟩ := h.live id ch _ hch hnew
    have hoo : (chainChange pks S (ch.extend S r)).old = (chainChange pks S ch).old := rfl
    have hnn : (chainChange pks S (ch.extend S r)).new = (changeOf pks S r).new := rfl
    -- other chains do not have this new key
    have hother : ∀ (id' : Nat) (ch' : Chain), id' ≠ id → st.chains[id']? = some ch' →
        (chainChange pks S ch').new ≠ some (oldKey S r) := by
      intro id' ch' hne hc' hn'
      have := h.complete id' ch' _ hc' hn'
      rw [hid] at this
      injection this with this
      exact hne this.symm
    -- nobody else has the new key of the row
    have hfree : ∀ k, (changeOf pks S r).new = some k → ∀ (id' : Nat) (ch' : Chain), id' ≠ id →
        st.chains[id']? = some ch' → (chainChange pks S ch').new ≠ some k := by
      intro k hk id' ch' hne hc' hn'
      rcases hv.2 k hk with h1 | h1
      · have := (h.live id' ch' k hc' hn').2
        rw [h1] at this; cases this
      · rw [hold] at h1
        injection h1 with h1
        subst h1
        exact hother id' ch' hne hc' hn'
    constructor
    · -- nodup
      simp only
      split
      · exact alInsert_nodup _ _ _ (alErase_nodup _ _ h.nodup)
      · exact alErase_nodup _ _ h.nodup
    · -- sound
      intro k id' hk
      simp only at hk ⊢
      split at hk
      · next hn =>
        rw [alGet_alInsert _ _ _ _ (alErase_nodup _ _ h.nodup)] at hk
        split at hk
        · next he =>
          injection hk with hk
          subst hk
          refine ⟨_, by rw [hget, if_pos rfl], ?_⟩
          rw [hnn, he]
          exact hS.new_some (fun h0 => hn ((hS.new_none r).2 h0))
        · next he =>
          rw [alGet_alErase _ _ _ h.nodup] at hk
          split at hk
          · cases hk
          · next he' =>
            obtain ⟨ch', h1, h2⟩ := h.sound k id' hk
            refine ⟨ch', ?_, h2⟩
            rw [hget, if_neg]
            · exact h1
            · intro h3; subst h3
              rw [hch] at h1
              injection h1 with h1
              subst h1
              rw [hnew] at h2
              injection h2 with h2
              exact he' h2.symm
      · rw [alGet_alErase _ _ _ h.nodup] at hk
        split at hk
        · cases hk
        · next he' =>
          obtain ⟨ch', h1, h2⟩ := h.sound k id' hk
          refine ⟨ch', ?_, h2⟩
          rw [hget, if_neg]
          · exact h1
          · intro h3; subst h3
            rw [hch] at h1
            injection h1 with h1
            subst h1
            rw [hnew] at h2
            injection h2 with h2
            exact he' h2.symm
    · -- complete
      intro id' ch' k hc' hn'
      simp only at hc' ⊢
      rw [hget] at hc'
      split at hc'
      · next he =>
        subst he
        injection hc' with hc'
        subst hc'
        rw [hnn] at hn'
        have hne : (changeOf pks S r).new ≠ none := by rw [hn']; simp
        rw [if_pos (fun h0 => hne ((hS.new_none r).1 h0)),
          alGet_alInsert _ _ _ _ (alErase_nodup _ _ h.nodup)]
        have := hS.new_some hne
        rw [hn'] at this
        injection this with this
        rw [if_pos this]
      · next he =>
        have h1 := h.complete id' ch' k hc' hn'
        have h2 : k ≠ oldKey S r := by
          intro h3; subst h3
          exact hother id' ch' he hc' hn'
        split
        · next hn =>
          rw [alGet_alInsert _ _ _ _ (alErase_nodup _ _ h.nodup), if_neg, alGet_alErase _ _ _ h.nodup,
            if_neg h2]
          · exact h1
          · intro h3
            have hne : (changeOf pks S r).new ≠ none := fun h0 => hn ((hS.new_none r).2 h0)
            exact hfree k (by rw [hS.new_some hne, h3]) id' ch' he hc' hn'
        · rw [alGet_alErase _ _ _ h.nodup, if_neg h2]
          exact h1
    · -- live
      intro id' ch' k hc' hn'
      rw [hget] at hc'
      split at hc'
      · next he =>
        subst he
        injection hc' with hc'
        subst hc'
        rw [hnn] at hn'
        have hflags := hf (by rw [hold]; simp) (by rw [hn']; simp)
        refine ⟨extend_uniform huni hflags, ?_⟩
        rw [hoo]
        simp only [apply1, hn', if_true, hold, baseOf, hT, Option.getD_some]
        congr 1
        rw [show (chainChange pks S (ch.extend S r)).set = fun c =>
          ((changeOf pks S r).set c).or ((chainChange pks S ch).set c) from
            funext (extend_set huni hflags), write_or]
      · next he =>
        obtain ⟨h1, h2⟩ := h.live id' ch' k hc' hn'
        refine ⟨h1, ?_⟩
        simp only [apply1]
        rw [if_neg, if_neg]
        · exact h2
        · rw [hold]; intro h3; injection h3 with h3; subst h3
          exact hother id' ch' he hc' hn'
        · intro h3
          exact hfree k h3 id' ch' he hc' hn'
    · -- olds
      intro i j a b ha hb hne he
      rw [hget] at ha hb
      have key : ∀ (i' : Nat) (c : Chain), (if i' = id then some (ch.extend S r) else st.chains[i']?) = some c →
          ∃ c0, st.chains[i']? = some c0 ∧ (chainChange pks S c).old = (chainChange pks S c0).old := by
        intro i' c hc
        split at hc
        · next h1 => injection hc with hc; subst hc; subst h1; exact ⟨ch, hch, hoo⟩
        · exact ⟨c, hc, rfl⟩
      obtain ⟨a0, ha0, ea⟩ := key i a ha
      obtain ⟨b0, hb0, eb⟩ := key j b hb
      rw [ea] at hne he; rw [eb] at he
      exact h.olds i j a0 b0 ha0 hb0 hne he
    · -- exist
      intro i a k ha ho
      rw [hget] at ha
      split at ha
      · next h1 =>
        injection ha with ha; subst ha
        exact h.exist id ch k hch (by rw [← hoo]; exact ho)
      · exact h.exist i a k ha ho
    · -- rest
      intro k hk
      have hset : (∃ (i : Nat) (a : Chain), (st.chains.set id (ch.extend S r))[i]? = some a ∧
          (chainChange pks S a).old = some k) ↔
          (∃ (i : Nat) (a : Chain), st.chains[i]? = some a ∧ (chainChange pks S a).old = some k) := by
        constructor
        · rintro ⟨i, a, ha, ho⟩
          rw [hget] at ha
          split at ha
          · injection ha with ha; subst ha
            exact ⟨id, ch, hch, by rw [← hoo]; exact ho⟩
          · exact ⟨i, a, ha, ho⟩
        · rintro ⟨i, a, ha, ho⟩
          by_cases h1 : i = id
          · subst h1
            rw [hch] at ha; injection ha with ha; subst ha
            exact ⟨i, _, by rw [hget, if_pos rfl], by rw [hoo]; exact ho⟩
          · exact ⟨i, a, by rw [hget, if_neg h1]; exact ha, ho⟩
      simp only [hset]
      have hknew : (changeOf pks S r).new ≠ some k := by
        have := hk id (ch.extend S r) (by simp only; rw [hget, if_pos rfl])
        rw [hnn] at this; exact this
      simp only [apply1]
      rw [if_neg hknew]
      by_cases ho : (changeOf pks S r).old = some k
      · rw [if_pos ho]
        rw [hold] at ho; injection ho with ho; subst ho
        rcases h.free id ch _ hch hnew with h1 | h1
        · split
          · rfl
          · exact h1.symm
        · rw [if_pos h1]
      · rw [if_neg ho]
        apply h.rest k
        intro i a ha hn'
        by_cases h1 : i = id
        · subst h1
          rw [hch] at ha; injection ha with ha; subst ha
          rw [hnew] at hn'; rw [hold] at ho
          exact ho hn'
        · exact hk i a (by simp only; rw [hget, if_neg h1]; exact ha) hn'
    · -- free
      intro i a k ha hn'
      have hset : (∃ (i : Nat) (a : Chain), st.chains[i]? = some a ∧ (chainChange pks S a).old = some k) →
          (∃ (i : Nat) (a : Chain), (st.chains.set id (ch.extend S r))[i]? = some a ∧
          (chainChange pks S a).old = some k) := by
        rintro ⟨i2, a2, ha2, ho⟩
        by_cases h1 : i2 = id
        · rw [h1, hch] at ha2; injection ha2 with ha2; subst ha2
          exact ⟨id, _, by rw [hget, if_pos rfl], by rw [hoo]; exact ho⟩
        · exact ⟨i2, a2, by rw [hget, if_neg h1]; exact ha2, ho⟩
      suffices hh : T0 k = none ∨ (∃ (i : Nat) (a : Chain), st.chains[i]? = some a ∧ (chainChange pks S a).old = some k) by
        rcases hh with hh | hh
        · exact Or.inl hh
        · exact Or.inr (hset hh)
      rw [hget] at ha
      split at ha
      · injection ha with ha; subst ha
        rw [hnn] at hn'
        rcases hv.2 k hn' with h1 | h1
        · have h2 := h.rest k (by
            intro i a ha hn
            rw [(h.live i a k ha hn).2] at h1; cases h1)
          rw [h1] at h2
          split at h2
          · next h3 => exact Or.inr h3
          · exact Or.inl h2.symm
        · rw [hold] at h1; injection h1 with h1; subst h1
          exact h.free id ch _ hch hnew
      · exact h.free i a k ha hn'
    · -- temp
      intro i hi a ha
      simp only at hi ha
      rw [hget] at ha
      have hold' : i ∈ st.temp → (if i = id then some (ch.extend S r) else st.chains[i]?) = some a →
          (chainChange pks S a).old = none ∧ (chainChange pks S a).new = none := by
        intro h1 h2
        split at h2
        · next h3 =>
          subst h3
          have := (h.temp i h1 ch hch).2
          rw [hnew] at this; cases this
        · exact h.temp i h1 a h2
      split at hi
      · exact hold' hi ha
      · next hn =>
        have hn : newKey S r = nullKey S := Classical.not_not.1 hn
        split at hi
        · next ho =>
          rcases List.mem_cons.1 hi with h1 | h1
          · subst h1
            rw [if_pos rfl] at ha
            injection ha with ha; subst ha
            refine ⟨?_, ?_⟩
            · rw [hoo, chainChange_old]; exact (hS.old_none _).1 ho
            · rw [hnn]; exact (hS.new_none r).1 hn
          · exact hold' h1 ha
        · exact hold' hi ha
    · -- templt
      intro i hi
      simp only [List.length_set]
      simp only at hi
      split at hi
      · exact h.templt i hi
      · split at hi
        · rcases List.mem_cons.1 hi with h1 | h1
          · rw [h1]; exact hlt
          · exact h.templt i h1
        · exact h.templt i hi
  · next hnone =>
    -- the row starts a chain
    have hget : ∀ i, (st.chains ++ [Chain.single S r])[i]? =
        if i = st.chains.length then some (Chain.single S r) else st.chains[i]? := by
      intro i
      rw [List.getElem?_append]
      split
      · next h1 => rw [if_neg (by omega)]
      · next h1 =>
        by_cases h2 : i = st.chains.length
        · subst h2; simp
        · rw [if_neg h2]
          rw [List.getElem?_eq_none (by simp; omega), List.getElem?_eq_none (by omega)]
    have hlen : ∀ (i : Nat) (c : Chain), st.chains[i]? = some c → i ≠ st.chains.length := by
      intro i c hc h1
      have := (List.getElem?_eq_some_iff.1 hc).1
      omega
    have hcc : chainChange pks S (Chain.single S r) = changeOf pks S r := chainChange_single r
    -- an existing old key is not the new key of a chain, hence untouched
    have holdk : ∀ k, (changeOf pks S r).old = some k →
        (∀ (i : Nat) (a : Chain), st.chains[i]? = some a → (chainChange pks S a).new ≠ some k) ∧
        (∀ (i : Nat) (a : Chain), st.chains[i]? = some a → (chainChange pks S a).old ≠ some k) ∧ (T0 k).isSome ∧ T k = T0 k := by
      intro k hk
      have hk' : k = oldKey S r := by
        have := hS.old_some (r := r) (by rw [hk]; simp)
        rw [hk] at this; injection this
      have h1 : ∀ (i : Nat) (a : Chain), st.chains[i]? = some a → (chainChange pks S a).new ≠ some k := by
        intro i a ha hn
        have := h.complete i a k ha hn
        rw [hk', hnone] at this; cases this
      have h2 := h.rest k h1
      have h3 := hv.1 k hk
      split at h2
      · rw [h2] at h3; cases h3
      · next h4 =>
        refine ⟨h1, ?_, by rw [← h2]; exact h3, h2⟩
        intro i a ha ho
        exact h4 ⟨i, a, ha, ho⟩
    -- nobody has the new key of the row
    have hfree : ∀ k, (changeOf pks S r).new = some k → ∀ (i : Nat) (a : Chain),
        st.chains[i]? = some a → (chainChange pks S a).new ≠ some k := by
      intro k hk i a ha hn
      rcases hv.2 k hk with h1 | h1
      · rw [(h.live i a k ha hn).2] at h1; cases h1
      · exact (holdk k h1).1 i a ha hn
    constructor
    · simp only
      split
      · exact alInsert_nodup _ _ _ h.nodup
      · exact h.nodup
    · -- sound
      intro k id hk
      simp only at hk ⊢
      have hprev : ∀ k id, alGet k st.pk = some id → ∃ ch,
          (st.chains ++ [Chain.single S r])[id]? = some ch ∧ (chainChange pks S ch).new = some k := by
        intro k id hk
        obtain ⟨ch, h1, h2⟩ := h.sound k id hk
        exact ⟨ch, by rw [hget, if_neg (hlen id ch h1)]; exact h1, h2⟩
      split at hk
      · next hn =>
        rw [alGet_alInsert _ _ _ _ h.nodup] at hk
        split at hk
        · next he =>
          injection hk with hk; subst hk
          refine ⟨_, by rw [hget, if_pos rfl], ?_⟩
          rw [hcc, he]
          exact hS.new_some (fun h0 => hn ((hS.new_none r).2 h0))
        · exact hprev k id hk
      · exact hprev k id hk
    · -- complete
      intro id ch k hc hn
      simp only at hc ⊢
      rw [hget] at hc
      split at hc
      · next he =>
        injection hc with hc; subst hc
        rw [hcc] at hn
        have hne : (changeOf pks S r).new ≠ none := by rw [hn]; simp
        rw [if_pos (fun h0 => hne ((hS.new_none r).1 h0)), alGet_alInsert _ _ _ _ h.nodup]
        have := hS.new_some hne
        rw [hn] at this
        injection this with this
        rw [if_pos this, he]
      · have h1 := h.complete id ch k hc hn
        split
        · next hn' =>
          rw [alGet_alInsert _ _ _ _ h.nodup, if_neg]
          · exact h1
          · intro h2
            have hne : (changeOf pks S r).new ≠ none := fun h0 => hn' ((hS.new_none r).2 h0)
            exact hfree k (by rw [hS.new_some hne, h2]) id ch hc hn
        · exact h1
    · -- live
      intro id ch k hc hn
      rw [hget] at hc
      split at hc
      · injection hc with hc; subst hc
        refine ⟨uniform_single r, ?_⟩
        rw [hcc] at hn ⊢
        simp only [apply1, hn, if_true]
        cases ho : (changeOf pks S r).old with
        | none => rfl
        | some k' => simp only [baseOf, (holdk k' ho).2.2.2]
      · obtain ⟨h1, h2⟩ := h.live id ch k hc hn
        refine ⟨h1, ?_⟩
        simp only [apply1]
        rw [if_neg (fun h3 => hfree k h3 id ch hc hn), if_neg (fun h3 => (holdk k h3).1 id ch hc hn)]
        exact h2
    · -- olds
      intro i j a b ha hb hne he
      rw [hget] at ha hb
      split at ha
      · next hi =>
        injection ha with ha; subst ha
        split at hb
        · next hj => rw [hi, hj]
        · exfalso
          rw [hcc] at hne he
          cases ho : (changeOf pks S r).old with
          | none => exact hne ho
          | some k' => exact (holdk k' ho).2.1 j b hb (by rw [← he, ho])
      · split at hb
        · exfalso
          injection hb with hb; subst hb
          rw [hcc] at he
          cases ho : (changeOf pks S r).old with
          | none => rw [ho] at he; exact hne he
          | some k' => exact (holdk k' ho).2.1 i a ha (by rw [he, ho])
        · exact h.olds i j a b ha hb hne he
    · -- exist
      intro i a k ha ho
      rw [hget] at ha
      split at ha
      · injection ha with ha; subst ha
        rw [hcc] at ho
        exact (holdk k ho).2.2.1
      · exact h.exist i a k ha ho
    · -- rest
      intro k hk
      simp only at hk
      have hknew : (changeOf pks S r).new ≠ some k := by
        have := hk st.chains.length (Chain.single S r) (by rw [hget, if_pos rfl])
        rw [hcc] at this; exact this
      have hk' : ∀ (i : Nat) (a : Chain), st.chains[i]? = some a → (chainChange pks S a).new ≠ some k :=
        fun i a ha => hk i a (by rw [hget, if_neg (hlen i a ha)]; exact ha)
      simp only [apply1]
      rw [if_neg hknew]
      by_cases ho : (changeOf pks S r).old = some k
      · rw [if_pos ho, if_pos]
        exact ⟨st.chains.length, Chain.single S r, by rw [hget, if_pos rfl], by rw [hcc]; exact ho⟩
      · rw [if_neg ho, h.rest k hk']
        have hset : (∃ (i : Nat) (a : Chain), (st.chains ++ [Chain.single S r])[i]? = some a ∧
            (chainChange pks S a).old = some k) ↔
            (∃ (i : Nat) (a : Chain), st.chains[i]? = some a ∧ (chainChange pks S a).old = some k) := by
          constructor
          · rintro ⟨i, a, ha, ho'⟩
            rw [hget] at ha
            split at ha
            · injection ha with ha; subst ha
              rw [hcc] at ho'; exact absurd ho' ho
            · exact ⟨i, a, ha, ho'⟩
          · rintro ⟨i, a, ha, ho'⟩
            exact ⟨i, a, by rw [hget, if_neg (hlen i a ha)]; exact ha, ho'⟩
        simp only [hset]
    · -- free
      intro i a k ha hn
      have hset : (∃ (i : Nat) (a : Chain), st.chains[i]? = some a ∧ (chainChange pks S a).old = some k) →
          (∃ (i : Nat) (a : Chain), (st.chains ++ [Chain.single S r])[i]? = some a ∧
            (chainChange pks S a).old = some k) := by
        rintro ⟨i, a, ha, ho'⟩
        exact ⟨i, a, by rw [hget, if_neg (hlen i a ha)]; exact ha, ho'⟩
      rw [hget] at ha
      split at ha
      · injection ha with ha; subst ha
        rw [hcc] at hn
        rcases hv.2 k hn with h1 | h1
        · have h2 := h.rest k (by
            intro i a ha hn
            rw [(h.live i a k ha hn).2] at h1; cases h1)
          rw [h1] at h2
          split at h2
          · next h3 => exact Or.inr (hset h3)
          · exact Or.inl h2.symm
        · exact Or.inr ⟨st.chains.length, Chain.single S r, by rw [hget, if_pos rfl], by rw [hcc]; exact h1⟩
      · rcases h.free i a k ha hn with h1 | h1
        · exact Or.inl h1
        · exact Or.inr (hset h1)
    · -- temp
      intro i hi a ha
      simp only at hi ha
      rw [hget] at ha
      split at ha
      · next h1 =>
        have := h.templt i hi
        omega
      · exact h.temp i hi a ha
    · intro i hi
      have := h.templt i hi
      simp only [List.length_append, List.length_cons, List.length_nil]
      omega

theorem SqInv.fold (hS : SchemaOk pks S) {T0 : Table} (rows : List Row) :
    ∀ (T : Table) (st : SqState), SqInv pks full S T0 T st →
    ValidSeq full T (rows.map (changeOf pks S)) → FlagsAgree pks S rows →
    SqInv pks full S T0 (replay full T (rows.map (changeOf pks S))) (rows.foldl (sqStep S) st) := by
  induction rows with
  | nil => intro T st h _ _; exact h
  | cons r rest ih =>
    intro T st h hv hf
    simp only [List.map_cons, ValidSeq] at hv
    simp only [List.map_cons, List.foldl_cons, replay]
    apply ih
    · exact h.step hS r hv.1 (hf r (by simp))
    · exact hv.2
    · exact fun r' hr' => hf r' (by simp [hr'])

theorem liveChains_sublist (st : SqState) : (liveChains st).Sublist st.chains := by
  have h1 : (liveChains st).Sublist (st.chains.zipIdx.map (·.1)) :=
    (List.filter_sublist).map _
  rw [List.zipIdx_map_fst] at h1
  exact h1

theorem mem_liveChains {st : SqState} {ch : Chain} :
    ch ∈ liveChains st ↔ ∃ id, st.chains[id]? = some ch ∧ id ∉ st.temp := by
  simp only [liveChains, List.mem_map, List.mem_filter, Bool.not_eq_true', Prod.exists,
    exists_and_right, exists_eq_right]
  constructor
  · rintro ⟨id, h1, h2⟩
    refine ⟨id, ?_, by simpa using h2⟩
    rw [List.mk_mem_zipIdx_iff_getElem?] at h1
    exact h1
  · rintro ⟨id, h1, h2⟩
    exact ⟨id, by rw [List.mk_mem_zipIdx_iff_getElem?]; exact h1, by simpa using h2⟩

theorem pairwise_of_getElem? {α : Type} {R : α → α → Prop} {l : List α}
    (h : ∀ (i j : Nat) (a b : α), i < j → l[i]? = some a → l[j]? = some b → R a b) : l.Pairwise R := by
  rw [List.pairwise_iff_getElem]
  intro i j hi hj hij
  exact h i j _ _ hij (by simp) (by simp)

theorem netApply_of {T T' : Table} {N : List Change}
    (h1 : ∀ ch ∈ N, ∀ k, ch.new = some k → T' k = some (write full (baseOf T ch.old) ch.set))
    (h2 : ∀ k, (∀ ch ∈ N, ch.new ≠ some k) → (∃ ch ∈ N, ch.old = some k) → T' k = none)
    (h3 : ∀ k, (∀ ch ∈ N, ch.new ≠ some k) → (∀ ch ∈ N, ch.old ≠ some k) → T' k = T k) :
    netApply full T N = T' := by
  funext k
  simp only [netApply]
  split
  · next ch hc =>
    have hm := List.mem_of_find?_eq_some hc
    have hn := List.find?_some hc
    simp only [decide_eq_true_eq] at hn
    exact (h1 ch hm k hn).symm
  · next hc =>
    rw [List.find?_eq_none] at hc
    have hn : ∀ ch ∈ N, ch.new ≠ some k := fun ch hm => by simpa using hc ch hm
    split
    · next ha =>
      rw [List.any_eq_true] at ha
      obtain ⟨ch, hm, ho⟩ := ha
      exact (h2 k hn ⟨ch, hm, by simpa using ho⟩).symm
    · next ha =>
      refine (h3 k hn ?_).symm
      intro ch hm ho
      apply ha
      rw [List.any_eq_true]
      exact ⟨ch, hm, by simpa using ho⟩

theorem SqInv.net {T0 T : Table} {st : SqState} (h : SqInv pks full S T0 T st) :
    NetValid T0 ((liveChains st).map (chainChange pks S)) ∧
    netApply full T0 ((liveChains st).map (chainChange pks S)) = T := by
  have hlive : ∀ (id : Nat) (ch : Chain) (k : Key), st.chains[id]? = some ch → (chainChange pks S ch).new = some k →
      ch ∈ liveChains st := by
    intro id ch k hc hn
    rw [mem_liveChains]
    refine ⟨id, hc, ?_⟩
    intro ht
    rw [(h.temp id ht ch hc).2] at hn; cases hn
  have hlive' : ∀ (id : Nat) (ch : Chain) (k : Key), st.chains[id]? = some ch → (chainChange pks S ch).old = some k →
      ch ∈ liveChains st := by
    intro id ch k hc hn
    rw [mem_liveChains]
    refine ⟨id, hc, ?_⟩
    intro ht
    rw [(h.temp id ht ch hc).1] at hn; cases hn
  refine ⟨?_, ?_⟩
  · constructor
    · rw [List.pairwise_map]
      apply List.Pairwise.sublist (liveChains_sublist st)
      apply pairwise_of_getElem?
      intro i j a b hij ha hb hne he
      have := h.olds i j a b ha hb hne he
      omega
    · rw [List.pairwise_map]
      apply List.Pairwise.sublist (liveChains_sublist st)
      apply pairwise_of_getElem?
      intro i j a b hij ha hb hne he
      cases hn : (chainChange pks S a).new with
      | none => exact hne hn
      | some k =>
        have h1 := h.complete i a k ha hn
        have h2 := h.complete j b k hb (by rw [← he, hn])
        rw [h1] at h2
        injection h2 with h2
        omega
    · intro ch hch k hk
      obtain ⟨c, hc, rfl⟩ := List.mem_map.1 hch
      obtain ⟨id, hid, _⟩ := mem_liveChains.1 hc
      exact h.exist id c k hid hk
    · intro ch hch k hk
      obtain ⟨c, hc, rfl⟩ := List.mem_map.1 hch
      obtain ⟨id, hid, _⟩ := mem_liveChains.1 hc
      rcases h.free id c k hid hk with h1 | ⟨id', c', h1, h2⟩
      · exact Or.inl h1
      · exact Or.inr ⟨_, List.mem_map.2 ⟨c', hlive' id' c' k h1 h2, rfl⟩, h2⟩
  · apply netApply_of
    · intro ch hch k hk
      obtain ⟨c, hc, rfl⟩ := List.mem_map.1 hch
      obtain ⟨id, hid, _⟩ := mem_liveChains.1 hc
      exact (h.live id c k hid hk).2
    · rintro k hk ⟨ch, hch, ho⟩
      obtain ⟨c, hc, rfl⟩ := List.mem_map.1 hch
      obtain ⟨id, hid, _⟩ := mem_liveChains.1 hc
      rw [h.rest k, if_pos ⟨id, c, hid, ho⟩]
      intro id' ch' hid' hn'
      exact hk _ (List.mem_map.2 ⟨ch', hlive id' ch' k hid' hn', rfl⟩) hn'
    · intro k hk ho
      rw [h.rest k, if_neg]
      · rintro ⟨id, c, hid, ho'⟩
        exact ho _ (List.mem_map.2 ⟨c, hlive' id c k hid ho', rfl⟩) ho'
      · intro id' ch' hid' hn'
        exact hk _ (List.mem_map.2 ⟨ch', hlive id' ch' k hid' hn', rfl⟩) hn'

/-- Squashing turns a sequence of changes into a set of changes with the same effect. -/
theorem squash_net (hS : SchemaOk pks S) {T : Table} {rows out : List Row}
    (hv : ValidSeq full T (rows.map (changeOf pks S))) (hf : FlagsAgree pks S rows)
    (h : squash S rows = some out) :
    NetValid T (out.map (changeOf pks S)) ∧
    netApply full T (out.map (changeOf pks S)) = replay full T (rows.map (changeOf pks S)) := by
  have hi := SqInv.fold (full := full) (T0 := T) hS rows T _ (SqInv.start T) hv hf
  simp only [squash] at h
  split at h
  · cases h
  · injection h with h
    subst h
    rw [List.map_map]
    exact hi.net

/-! ### facts without validity -/

theorem sqStep_chains_length (st : SqState) (r : Row) :
    (sqStep S st r).chains.length ≤ st.chains.length + 1 := by
  simp only [sqStep]
  split
  · split
    · omega
    · simp
  · simp

theorem fold_chains_length (rows : List Row) (st : SqState) :
    (rows.foldl (sqStep S) st).chains.length ≤ st.chains.length + rows.length := by
  induction rows generalizing st with
  | nil => simp
  | cons r rest ih =>
    have h1 := ih (sqStep S st r)
    have h2 := sqStep_chains_length (S := S) st r
    simp only [List.foldl_cons, List.length_cons]
    omega

theorem squash_length {rows out : List Row} (h : squash S rows = some out) :
    out.length ≤ rows.length := by
  simp only [squash] at h
  split at h
  · cases h
  · injection h with h
    subst h
    have h1 := (liveChains_sublist (rows.foldl (sqStep S) { chains := [], temp := [], pk := [] })).length_le
    have h2 := fold_chains_length (S := S) rows { chains := [], temp := [], pk := [] }
    simp only [List.length_map, List.length_nil] at *
    omega

/-- A chain that begins and ends with a NULL key is marked as temporary or is a single row. -/
theorem fold_temp (P : Row → Prop) (rows : List Row) (hP : ∀ r ∈ rows, P r) (st : SqState)
    (h : ∀ (id : Nat) (ch : Chain), st.chains[id]? = some ch → oldKey S ch.first = nullKey S →
      newKey S ch.last = nullKey S → id ∈ st.temp ∨ (P ch.first ∧ ch.first = ch.last)) :
    ∀ (id : Nat) (ch : Chain), (rows.foldl (sqStep S) st).chains[id]? = some ch →
      oldKey S ch.first = nullKey S → newKey S ch.last = nullKey S →
      id ∈ (rows.foldl (sqStep S) st).temp ∨ (P ch.first ∧ ch.first = ch.last) := by
  induction rows generalizing st with
  | nil => exact h
  | cons r rest ih =>
    simp only [List.foldl_cons]
    apply ih (fun r' hr' => hP r' (by simp [hr']))
    intro id ch hc ho hn
    rcases Option.eq_none_or_eq_some (alGet (oldKey S r) st.pk) with hg | ⟨id0, hg⟩
    · simp only [sqStep, hg] at hc ⊢
      simp only [List.getElem?_append] at hc
      split at hc
      · exact h id ch hc ho hn
      · rw [List.getElem?_singleton] at hc
        split at hc
        · injection hc with hc
          subst hc
          right
          exact ⟨hP r (by simp), rfl⟩
        · cases hc
    · rcases Option.eq_none_or_eq_some (st.chains[id0]?) with hb | ⟨c0, hb⟩
      · simp only [sqStep, hg, hb] at hc ⊢
        exact h id ch hc ho hn
      · simp only [sqStep, hg, hb] at hc ⊢
        simp only [List.getElem?_set] at hc
        split at hc
        · next he =>
          split at hc
          · injection hc with hc
            subst hc
            left
            simp only [Chain.extend] at ho hn
            simp [hn, ho, he]
          · cases hc
        · rcases h id ch hc ho hn with h1 | h1
          · left
            split
            · exact h1
            · split
              · exact List.mem_cons_of_mem _ h1
              · exact h1
          · exact Or.inr h1

end Seafowl.Sync
