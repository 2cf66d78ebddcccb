import Verif.Sync.Resquash

/-!
# Squashing: C12, C13 and C61

The vocabulary (`Table`, `Change`, `replay`, `netApply`, `ValidSeq`, `changeOf`, `SchemaOk`) is in
`Verif.Sync.DataSpec`.
-/

namespace Seafowl.Sync

variable {pks full : List String} {S : Schema}

/-! ### concrete data used in the examples -/

namespace SqDemo

/-- A row from its cells. -/
def row (cells : List (Desc × Cell)) : Row := fun d => (cells.lookup d).getD none

/-- A table from its rows (column lists). -/
def trow (cells : List (String × Cell)) : TRow := fun c => (cells.lookup c).getD none

/-- An integer cell. -/
def i (n : Int) : Cell := some (.int n)
/-- A boolean cell. -/
def t (b : Bool) : Cell := some (.bool b)

/-- Key `id`, value column `v` with a Changed column. -/
def S1 : Schema := [⟨.oldPk, "id"⟩, ⟨.newPk, "id"⟩, ⟨.value, "v"⟩, ⟨.changed, "v"⟩]
/-- A row for `S1`. -/
def r1 (o n v c : Cell) : Row :=
  row [(⟨.oldPk, "id"⟩, o), (⟨.newPk, "id"⟩, n), (⟨.value, "v"⟩, v), (⟨.changed, "v"⟩, c)]
/-- Two value columns with Changed columns. -/
def S2 : Schema := [⟨.oldPk, "id"⟩, ⟨.newPk, "id"⟩, ⟨.value, "a"⟩, ⟨.value, "b"⟩,
  ⟨.changed, "a"⟩, ⟨.changed, "b"⟩]
/-- A row for `S2`. -/
def r2 (o n a b ca cb : Cell) : Row :=
  row [(⟨.oldPk, "id"⟩, o), (⟨.newPk, "id"⟩, n), (⟨.value, "a"⟩, a), (⟨.value, "b"⟩, b),
    (⟨.changed, "a"⟩, ca), (⟨.changed, "b"⟩, cb)]
/-- Key `id` and plain value column `v`. -/
def S3 : Schema := [⟨.oldPk, "id"⟩, ⟨.newPk, "id"⟩, ⟨.value, "v"⟩]
/-- A row for `S3`. -/
def r3 (o n v : Cell) : Row :=
  row [(⟨.oldPk, "id"⟩, o), (⟨.newPk, "id"⟩, n), (⟨.value, "v"⟩, v)]

/-- The table with one row `id = 1, v = 10`. -/
def T1 : Table := fun k => if k = [i 1] then some (trow [("id", i 1), ("v", i 10)]) else none
/-- The table with one row `id = 1, a = 1, b = 2`. -/
def T2 : Table := fun k => if k = [i 1] then some (trow [("id", i 1), ("a", i 1), ("b", i 2)]) else none
/-- The table with the rows 1 and 2. -/
def T3 : Table := fun k =>
  if k = [i 1] then some (trow [("id", i 1), ("v", i 10)])
  else if k = [i 2] then some (trow [("id", i 2), ("v", i 20)]) else none

theorem S1_ok : SchemaOk ["id"] S1 := by
  constructor
  · decide
  · decide
  · decide
  · intro c h; simp [S1] at h ⊢; exact h
  · intro c h; simp [S1] at h; simp [h]

theorem S2_ok : SchemaOk ["id"] S2 := by
  constructor
  · decide
  · decide
  · decide
  · intro c h; simp [S2] at h ⊢; exact h
  · intro c h; simp [S2] at h; rcases h with h | h <;> simp [h]

theorem S3_ok : SchemaOk ["id"] S3 := by
  constructor
  · decide
  · decide
  · decide
  · intro c h; simp [S3] at h
  · intro c h; simp [S3] at h; simp [h]

/-- A key-moving update, an update that leaves the value, an insertion of the vacated key, a temporary
row, and a deletion. -/
def stream : List Row :=
  [r1 (i 1) (i 2) (i 11) (t true), r1 (i 2) (i 3) none (t false), r1 none (i 1) (i 7) (t true),
   r1 none (i 9) (i 9) (t true), r1 (i 9) none none (t false), r1 (i 1) none none (t false)]

end SqDemo

/-- Validity of one change as a computation for tables given by a finite list of keys. -/
theorem valid1_of {T : Table} {ch : Change} (h1 : (match ch.old with | none => true | some k => (T k).isSome) = true)
    (h2 : (match ch.new with | none => true | some k => (T k).isNone || decide (ch.old = some k)) = true) :
    Valid1 T ch := by
  constructor
  · intro k hk; rw [hk] at h1; exact h1
  · intro k hk
    rw [hk] at h2
    simp only [Bool.or_eq_true, Option.isNone_iff_eq_none, decide_eq_true_eq] at h2
    exact h2

/-! ### C12 -/

/-- **C12**, as far as it holds.  Squashing a valid stream of row changes into one batch and applying
it gives the same table as applying the row changes one by one, for every table, schema and number of
rows, provided that in each update row the Changed flags are all set or all clear. -/
theorem C12_squash_effect_partial (hS : SchemaOk pks S) (T : Table) (rows out : List Row)
    (hvalid : ValidSeq full T (rows.map (changeOf pks S))) (hflags : FlagsAgree pks S rows)
    (hsq : squash S rows = some out) :
    netApply full T (out.map (changeOf pks S)) = replay full T (rows.map (changeOf pks S)) :=
  (squash_net hS hvalid hflags hsq).2

/-- **C12** for batches with at most one Changed column: no condition on the flags. -/
theorem C12_one_changed_column (hS : SchemaOk pks S) (T : Table) (rows out : List Row)
    (hone : ∀ c c', Desc.mk .changed c ∈ S → Desc.mk .changed c' ∈ S → c = c')
    (hvalid : ValidSeq full T (rows.map (changeOf pks S))) (hsq : squash S rows = some out) :
    netApply full T (out.map (changeOf pks S)) = replay full T (rows.map (changeOf pks S)) :=
  (squash_net hS hvalid (fun r _ _ _ c c' hc hc' => by rw [hone c c' hc hc']) hsq).2

/-- **C12**: squashing fails only when nothing is left and there is a Changed column. -/
theorem C12_squash_defined (S : Schema) (rows : List Row) (h : squash S rows = none) :
    (∃ c, Desc.mk .changed c ∈ S) ∧
      liveChains (rows.foldl (sqStep S) { chains := [], temp := [], pk := [] }) = [] := by
  simp only [squash] at h
  split at h
  · next hc =>
    simp only [Bool.and_eq_true, List.isEmpty_iff, Bool.not_eq_true'] at hc
    refine ⟨?_, hc.1⟩
    cases hn : names S .changed with
    | nil => rw [hn] at hc; simp at hc
    | cons c cs => exact ⟨c, mem_names.1 (by rw [hn]; simp)⟩
  · cases h

open SqDemo in
/-- The stream of the demo is valid on the one-row table, and squashes to one row. -/
example : ValidSeq ["id", "v"] T1 (stream.map (changeOf ["id"] S1)) := by
  simp only [stream, List.map_cons, List.map_nil, ValidSeq]
  refine ⟨valid1_of ?_ ?_, valid1_of ?_ ?_, valid1_of ?_ ?_, valid1_of ?_ ?_, valid1_of ?_ ?_,
    valid1_of ?_ ?_, trivial⟩ <;> decide

open SqDemo in
example : (squash S1 stream).map List.length = some 1 := by decide

open SqDemo in
example : ((squash S1 stream).map (fun out => out.map (fun r => S1.map r))) =
    some [[i 1, i 3, i 11, t true]] := by decide

open SqDemo in
/-- **C12 is violated** when there are two Changed columns: an update of `a` followed by an update of
`b` of the same row squashes to the update of `a` only. -/
theorem C12_violated : ∃ (pks full : List String) (S : Schema) (T : Table) (rows out : List Row),
    SchemaOk pks S ∧ ValidSeq full T (rows.map (changeOf pks S)) ∧ squash S rows = some out ∧
    netApply full T (out.map (changeOf pks S)) ≠ replay full T (rows.map (changeOf pks S)) := by
  refine ⟨["id"], ["id", "a", "b"], S2, T2,
    [r2 (i 1) (i 1) (i 10) none (t true) (t false), r2 (i 1) (i 1) none (i 20) (t false) (t true)],
    _, S2_ok, ?_, rfl, ?_⟩
  · simp only [List.map_cons, List.map_nil, ValidSeq]
    refine ⟨valid1_of ?_ ?_, valid1_of ?_ ?_, trivial⟩ <;> decide
  · intro h
    have h1 := congrArg (fun T : Table => ((T [i 1]).map (fun r => r "b"))) h
    revert h1
    decide

theorem oldKey_out (S : Schema) (ch : Chain) : oldKey S (sqOut S ch) = oldKey S ch.first := by
  simp [oldKey, sqOut]

theorem newKey_out (S : Schema) (ch : Chain) : newKey S (sqOut S ch) = newKey S ch.last := by
  simp [newKey, sqOut]

/-- **C12 is violated, always**: of two changes of one row, the second says nothing of the first of the Changed columns.
Whatever it says of the other Changed columns is lost: their flags and values are those of the first change. -/
theorem C12_violated_always (S : Schema) (c : String) (cs : List String) (hcs : names S .changed = c :: cs)
    (u u' : Row) (hkey : newKey S u = oldKey S u') (hnn : newKey S u ≠ nullKey S) (hnn' : newKey S u' ≠ nullKey S)
    (hflag : isTrue (u' ⟨.changed, c⟩) = false) :
    ∃ o, squash S [u, u'] = some [o] ∧ oldKey S o = oldKey S u ∧ newKey S o = newKey S u' ∧
      ∀ c' ∈ names S .changed, o ⟨.changed, c'⟩ = u ⟨.changed, c'⟩ ∧ o ⟨.value, c'⟩ = u ⟨.value, c'⟩ := by
  let ch : Chain := (Chain.single S u).extend S u'
  have hfold : [u, u'].foldl (sqStep S) { chains := [], temp := [], pk := [] } =
      { chains := [ch], temp := [], pk := alInsert (newKey S u') 0 (alErase (newKey S u) [(newKey S u, 0)]) } := by
    have e1 : sqStep S { chains := [], temp := [], pk := [] } u =
        { chains := [Chain.single S u], temp := [], pk := [(newKey S u, 0)] } := by
      simp [sqStep, alGet, hnn, alInsert, alErase]
    simp only [List.foldl_cons, List.foldl_nil, e1]
    simp [sqStep, alGet, ← hkey, hnn', ch]
  have hhd : ∀ l, ch.chg.headD l = u := by
    intro l
    simp [ch, Chain.extend, Chain.single, hcs, hflag]
  refine ⟨sqOut S ch, ?_, oldKey_out S ch, newKey_out S ch, ?_⟩
  · simp only [squash, hfold]
    simp [liveChains]
  · intro c' hc'
    have hh : has S .changed c' = true := by simpa [has] using mem_names.1 hc'
    simp only [sqOut, hhd, hh, if_true, and_self]

open SqDemo in
example : names S2 .changed = ["a", "b"] ∧
    isTrue (r2 (i 1) (i 1) none (i 20) (t false) (t true) ⟨.changed, "a"⟩) = false := by decide

/-! ### C13 -/

/-- **C13**: the output has at most as many rows as the input (any input). -/
theorem C13_no_growth (S : Schema) (rows out : List Row) (h : squash S rows = some out) :
    out.length ≤ rows.length := squash_length h

/-- **C13**: an output row without old and new key is an input row without old and new key; a row that
was created by one input row and deleted by another one leaves nothing behind (any input). -/
theorem C13_no_temporary (hS : SchemaOk pks S) (rows out : List Row) (h : squash S rows = some out)
    (o : Row) (ho : o ∈ out) (hold : (changeOf pks S o).old = none) (hnew : (changeOf pks S o).new = none) :
    ∃ r ∈ rows, (changeOf pks S r).old = none ∧ (changeOf pks S r).new = none := by
  have hft := fold_temp (S := S) (· ∈ rows) rows (fun r hr => hr) { chains := [], temp := [], pk := [] }
    (by simp)
  simp only [squash] at h
  split at h
  · cases h
  · injection h with h
    subst h
    obtain ⟨ch, hch, rfl⟩ := List.mem_map.1 ho
    obtain ⟨id, hid, hnt⟩ := mem_liveChains.1 hch
    rcases hft id ch hid ((hS.old_none _).2 hold) ((hS.new_none _).2 hnew) with h1 | ⟨h1, h2⟩
    · exact absurd h1 hnt
    · refine ⟨ch.first, h1, hold, ?_⟩
      rw [h2]; exact hnew

/-- The schema without the Changed columns. -/
def bare (S : Schema) : Schema := S.filter (fun d => decide (d.role ≠ .changed))

theorem names_bare (S : Schema) (role : Role) (h : role ≠ .changed) : names (bare S) role = names S role := by
  simp only [names, bare, List.filter_filter]
  congr 1
  apply List.filter_congr
  intro d _
  by_cases hd : d.role = role
  · simp [hd, h]
  · simp [hd]

theorem names_bare_changed (S : Schema) : names (bare S) .changed = [] := by
  simp only [names, bare, List.filter_filter, List.map_eq_nil_iff, List.filter_eq_nil_iff]
  intro d _
  by_cases hd : d.role = .changed <;> simp [hd]

theorem schemaOk_bare (hS : SchemaOk pks S) : SchemaOk pks (bare S) := by
  refine ⟨hS.nodup.filter _, ?_, ?_, ?_, ?_⟩
  · rw [names_bare S .oldPk (by decide), hS.oldPk]
  · rw [names_bare S .newPk (by decide), hS.newPk]
  · intro c hc
    simp [bare] at hc
  · intro c hc
    exact hS.noPk c (List.mem_filter.1 hc).1

/-- A chain without its Changed columns. -/
def Chain.bare (ch : Chain) : Chain := { ch with chg := [] }

/-- The state of squashing without the Changed columns. -/
def SqState.bare (st : SqState) : SqState := { st with chains := st.chains.map Chain.bare }

theorem sqStep_bare (S : Schema) (st : SqState) (r : Row) :
    (sqStep S st r).bare = sqStep (bare S) st.bare r := by
  have h1 : oldKey (Sync.bare S) r = oldKey S r := by simp only [oldKey, names_bare S .oldPk (by decide)]
  have h2 : newKey (Sync.bare S) r = newKey S r := by simp only [newKey, names_bare S .newPk (by decide)]
  have h3 : nullKey (Sync.bare S) = nullKey S := by simp only [nullKey, names_bare S .oldPk (by decide)]
  have h4 : ∀ ch : Chain, (ch.extend S r).bare = ch.bare.extend (Sync.bare S) r := by
    intro ch; simp [Chain.extend, Chain.bare]
  have h5 : (Chain.single S r).bare = Chain.single (Sync.bare S) r := by
    simp [Chain.single, Chain.bare, names_bare_changed]
  simp only [sqStep, h1, h2, h3]
  rcases Option.eq_none_or_eq_some (alGet (oldKey S r) st.pk) with hg | ⟨id, hg⟩
  · simp only [hg, SqState.bare, List.map_append, List.map_cons, List.map_nil, h5, List.length_map]
  · simp only [hg, SqState.bare, List.getElem?_map]
    cases hc : st.chains[id]? with
    | none => simp
    | some ch =>
      have h6 : oldKey (Sync.bare S) ch.bare.first = oldKey S ch.first := by
        simp only [oldKey, names_bare S .oldPk (by decide), Chain.bare]
      simp only [Option.map_some, List.map_set, h4, h6]

theorem fold_bare (S : Schema) (rows : List Row) (st : SqState) :
    (rows.foldl (sqStep S) st).bare = rows.foldl (sqStep (bare S)) st.bare := by
  induction rows generalizing st with
  | nil => rfl
  | cons r rest ih => simp only [List.foldl_cons, ih, sqStep_bare]

theorem liveChains_bare (st : SqState) : liveChains st.bare = (liveChains st).map Chain.bare := by
  simp only [liveChains, SqState.bare, List.zipIdx_map, List.filter_map, List.map_map]
  rfl

/-- The keys of the squashed rows do not depend on the Changed columns. -/
theorem squash_bare_keys (pks : List String) {S : Schema} {rows out : List Row} (h : squash S rows = some out) :
    ∃ out', squash (bare S) rows = some out' ∧
      out'.map (fun r => ((changeOf pks (bare S) r).old, (changeOf pks (bare S) r).new)) =
        out.map (fun r => ((changeOf pks S r).old, (changeOf pks S r).new)) := by
  simp only [squash] at h
  split at h
  · cases h
  · injection h with h
    subst h
    have hb := fold_bare S rows { chains := [], temp := [], pk := [] }
    have hl := liveChains_bare (rows.foldl (sqStep S) { chains := [], temp := [], pk := [] })
    rw [hb] at hl
    have h0 : SqState.bare { chains := [], temp := [], pk := [] } = { chains := [], temp := [], pk := [] } := rfl
    rw [h0] at hl
    refine ⟨_, by simp only [squash, names_bare_changed, List.isEmpty_nil, Bool.not_true, Bool.and_false,
      Bool.false_eq_true, if_false]; rfl, ?_⟩
    rw [hl]
    simp only [List.map_map]
    apply List.map_congr_left
    intro ch _
    simp only [Function.comp, changeOf, sqOut, Chain.bare]

/-- Whether a stream makes sense depends on its keys only. -/
theorem validSeq_keys : ∀ (chs chs' : List Change) (T T' : Table),
    chs.map (fun c => (c.old, c.new)) = chs'.map (fun c => (c.old, c.new)) →
    (∀ k, (T k).isSome = (T' k).isSome) → ValidSeq full T chs → ValidSeq full T' chs'
  | [], [], _, _, _, _, _ => trivial
  | [], _ :: _, _, _, h, _, _ => by simp at h
  | _ :: _, [], _, _, h, _, _ => by simp at h
  | a :: as, b :: bs, T, T', h, hd, hv => by
    simp only [List.map_cons, List.cons.injEq, Prod.mk.injEq] at h
    obtain ⟨⟨h1, h2⟩, h3⟩ := h
    obtain ⟨⟨v1, v2⟩, v3⟩ := hv
    refine ⟨⟨?_, ?_⟩, validSeq_keys as bs _ _ h3 ?_ v3⟩
    · intro k hk
      rw [← hd k]
      exact v1 k (by rw [h1, hk])
    · intro k hk
      rcases v2 k (by rw [h2, hk]) with hn | ho
      · left
        have := hd k
        rw [hn] at this
        cases hT : T' k with
        | none => rfl
        | some x => rw [hT] at this; cases this
      · right
        rw [← h1, ho]
    · intro k
      simp only [apply1, h1, h2]
      split
      · rfl
      · split
        · rfl
        · exact hd k

theorem netValid_keys {T : Table} {N N' : List Change}
    (h : N.map (fun c => (c.old, c.new)) = N'.map (fun c => (c.old, c.new))) (hv : NetValid T N) : NetValid T N' := by
  have hmem : ∀ c' ∈ N', ∃ c ∈ N, c.old = c'.old ∧ c.new = c'.new := by
    intro c' hc'
    have : (c'.old, c'.new) ∈ N.map (fun c => (c.old, c.new)) := by
      rw [h]; exact List.mem_map.2 ⟨c', hc', rfl⟩
    obtain ⟨c, hc, he⟩ := List.mem_map.1 this
    simp only [Prod.mk.injEq] at he
    exact ⟨c, hc, he.1, he.2⟩
  have hmem' : ∀ c ∈ N, ∃ c' ∈ N', c'.old = c.old ∧ c'.new = c.new := by
    intro c hc
    have : (c.old, c.new) ∈ N'.map (fun c => (c.old, c.new)) := by
      rw [← h]; exact List.mem_map.2 ⟨c, hc, rfl⟩
    obtain ⟨c', hc', he⟩ := List.mem_map.1 this
    simp only [Prod.mk.injEq] at he
    exact ⟨c', hc', he.1, he.2⟩
  constructor
  · have h1 : (N.map (fun c => (c.old, c.new))).Pairwise (fun a b => a.1 ≠ none → a.1 ≠ b.1) :=
      List.pairwise_map.2 hv.olds
    rw [h] at h1
    exact List.pairwise_map.1 h1
  · have h1 : (N.map (fun c => (c.old, c.new))).Pairwise (fun a b => a.2 ≠ none → a.2 ≠ b.2) :=
      List.pairwise_map.2 hv.news
    rw [h] at h1
    exact List.pairwise_map.1 h1
  · intro c' hc' k hk
    obtain ⟨c, hc, h1, h2⟩ := hmem c' hc'
    exact hv.exist c hc k (by rw [h1, hk])
  · intro c' hc' k hk
    obtain ⟨c, hc, h1, h2⟩ := hmem c' hc'
    rcases hv.free c hc k (by rw [h2, hk]) with h3 | ⟨d, hd, h3⟩
    · exact Or.inl h3
    · obtain ⟨d', hd', h4, -⟩ := hmem' d hd
      exact Or.inr ⟨d', hd', by rw [h4, h3]⟩

/-- The squashed rows of a valid stream make sense all at once, whatever the Changed flags are. -/
theorem squash_netValid (hS : SchemaOk pks S) {T : Table} {rows out : List Row}
    (hv : ValidSeq full T (rows.map (changeOf pks S))) (h : squash S rows = some out) :
    NetValid T (out.map (changeOf pks S)) := by
  obtain ⟨out', h1, h2⟩ := squash_bare_keys pks h
  have hv' : ValidSeq full T (rows.map (changeOf pks (bare S))) := by
    refine validSeq_keys _ _ T T ?_ (fun _ => rfl) hv
    simp only [List.map_map]
    rfl
  have hf : FlagsAgree pks (bare S) rows := by
    intro r _ _ _ c c' hc
    simp [bare] at hc
  refine netValid_keys ?_ (squash_net (schemaOk_bare hS) hv' hf h1).1
  simp only [List.map_map]
  exact h2

/-- **C13**: for a valid stream no two output rows share an old key or a new key, whatever the Changed flags are. -/
theorem C13_distinct_keys (hS : SchemaOk pks S) (T : Table) (rows out : List Row)
    (hvalid : ValidSeq full T (rows.map (changeOf pks S)))
    (hsq : squash S rows = some out) (i j : Nat) (a b : Row) (hij : i ≠ j)
    (ha : out[i]? = some a) (hb : out[j]? = some b) :
    ((changeOf pks S a).old ≠ none → (changeOf pks S a).old ≠ (changeOf pks S b).old) ∧
    ((changeOf pks S a).new ≠ none → (changeOf pks S a).new ≠ (changeOf pks S b).new) := by
  have hn := squash_netValid hS hvalid hsq
  have ho := List.pairwise_iff_getElem.1 (List.pairwise_map.1 hn.olds)
  have hw := List.pairwise_iff_getElem.1 (List.pairwise_map.1 hn.news)
  obtain ⟨hi, rfl⟩ := List.getElem?_eq_some_iff.1 ha
  obtain ⟨hj, rfl⟩ := List.getElem?_eq_some_iff.1 hb
  rcases Nat.lt_or_gt_of_ne hij with h1 | h1
  · exact ⟨ho i j hi hj h1, hw i j hi hj h1⟩
  · constructor
    · intro h2 h3; exact ho j i hj hi h1 (by rw [← h3]; exact h2) h3.symm
    · intro h2 h3; exact hw j i hj hi h1 (by rw [← h3]; exact h2) h3.symm

open SqDemo in
/-- Two chains survive: the moved row 1 → 3 and a new row with key 1. -/
example : ((squash S1 (stream.take 5)).map (fun out => out.map (fun r => S1.map r))) =
    some [[i 1, i 3, i 11, t true], [none, i 1, i 7, t true]] := by decide

/-! ### C61 -/

/-- `Resquashed S orig cur`: `cur` is what the buffer may hold after the changes `orig` have been
appended to it in order and it has been squashed at any times in between. -/
inductive Resquashed (S : Schema) : List Row → List Row → Prop
  | nil : Resquashed S [] []
  | append {orig cur : List Row} (more : List Row) :
      Resquashed S orig cur → Resquashed S (orig ++ more) (cur ++ more)
  | squash {orig cur out : List Row} :
      Resquashed S orig cur → squash S cur = some out → Resquashed S orig out

theorem replay_append (T : Table) (a b : List Change) :
    replay full T (a ++ b) = replay full (replay full T a) b := by
  simp [replay, List.foldl_append]

theorem validSeq_append {T : Table} {a b : List Change} :
    ValidSeq full T (a ++ b) ↔ ValidSeq full T a ∧ ValidSeq full (replay full T a) b := by
  induction a generalizing T with
  | nil => simp [ValidSeq, replay]
  | cons c cs ih =>
    simp only [List.cons_append, ValidSeq, ih, and_assoc]
    rfl

/-- **C61**, as far as it holds.  However often a buffer is squashed while changes are appended, its
content replayed has the same effect as the original changes, provided that no change moves a row to
another key. -/
theorem C61_resquash_partial (hS : SchemaOk pks S) (T : Table) {orig cur : List Row}
    (h : Resquashed S orig cur) (hvalid : ValidSeq full T (orig.map (changeOf pks S)))
    (hflags : FlagsAgree pks S orig)
    (hstay : ∀ r ∈ orig, (changeOf pks S r).old = none ∨ (changeOf pks S r).new = none ∨
      (changeOf pks S r).old = (changeOf pks S r).new) :
    replay full T (cur.map (changeOf pks S)) = replay full T (orig.map (changeOf pks S)) ∧
    ValidSeq full T (cur.map (changeOf pks S)) ∧ FlagsAgree pks S cur ∧
    ∀ r ∈ cur, Stable (changeOf pks S r) := by
  induction h with
  | nil => exact ⟨rfl, trivial, fun r hr => absurd hr (by simp), fun r hr => absurd hr (by simp)⟩
  | append more _ ih =>
    rw [List.map_append] at hvalid
    have hv := validSeq_append.1 hvalid
    obtain ⟨h1, h2, h3, h4⟩ := ih hv.1 (fun r hr => hflags r (by simp [hr])) (fun r hr => hstay r (by simp [hr]))
    refine ⟨?_, ?_, ?_, ?_⟩
    · rw [List.map_append, List.map_append, replay_append, replay_append, h1]
    · rw [List.map_append, validSeq_append, h1]
      exact ⟨h2, hv.2⟩
    · intro r hr
      rcases List.mem_append.1 hr with h5 | h5
      · exact h3 r h5
      · exact hflags r (by simp [h5])
    · intro r hr
      rcases List.mem_append.1 hr with h5 | h5
      · exact h4 r h5
      · exact hstay r (by simp [h5])
  | squash _ hsq ih =>
    obtain ⟨h1, h2, h3, h4⟩ := ih hvalid hflags hstay
    obtain ⟨h5, h6, h7, h8⟩ := squash_stable hS h2 h3 h4 hsq
    exact ⟨by rw [h6, h1], h5, h7, h8⟩

open SqDemo in
/-- Rows 1 → 5, 2 → 3, 5 → 2 squash to 1 → 2 and 2 → 3. -/
theorem C61_first_squash :
    ((squash S3 [r3 (i 1) (i 5) (i 100), r3 (i 2) (i 3) (i 200), r3 (i 5) (i 2) (i 100)]).map
      (fun out => out.map (fun r => S3.map r))) =
    some [[i 1, i 2, i 100], [i 2, i 3, i 200]] := by decide

/-- **C61 is violated by key-moving updates, always**: `a` moves to `b`, `c` to `d` and then `b` to `c`.  Squashing gives
`a` to `c` and `c` to `d`; squashing that again gives `a` to `d` alone, whatever the rows are. -/
theorem C61_violated_always (S : Schema) (u v w : Row) (b c d : Key)
    (hu : newKey S u = b) (hv : oldKey S v = c) (hv' : newKey S v = d) (hw : oldKey S w = b) (hw' : newKey S w = c)
    (hb : b ≠ nullKey S) (hc : c ≠ nullKey S) (hd : d ≠ nullKey S) (hbc : b ≠ c) (hbd : b ≠ d) :
    ∃ o o' o2, squash S [u, v, w] = some [o, o'] ∧ oldKey S o = oldKey S u ∧ newKey S o = c ∧ oldKey S o' = c ∧ newKey S o' = d ∧
      squash S [o, o'] = some [o2] ∧ oldKey S o2 = oldKey S u ∧ newKey S o2 = d := by
  let ch : Chain := (Chain.single S u).extend S w
  have hfold : [u, v, w].foldl (sqStep S) { chains := [], temp := [], pk := [] } =
      { chains := [ch, Chain.single S v], temp := [],
        pk := alInsert c 0 (alErase b [(d, 1), (b, 0)]) } := by
    have e1 : sqStep S { chains := [], temp := [], pk := [] } u =
        { chains := [Chain.single S u], temp := [], pk := [(b, 0)] } := by
      simp [sqStep, alGet, hu, hb, alInsert, alErase]
    have e2 : sqStep S { chains := [Chain.single S u], temp := [], pk := [(b, 0)] } v =
        { chains := [Chain.single S u, Chain.single S v], temp := [], pk := [(d, 1), (b, 0)] } := by
      simp [sqStep, alGet, hv, hv', hd, hbc, alInsert, alErase, hbd]
    simp only [List.foldl_cons, List.foldl_nil, e1, e2]
    simp [sqStep, alGet, hw, hw', hc, Ne.symm hbd, ch]
  refine ⟨sqOut S ch, sqOut S (Chain.single S v),
    sqOut S ((Chain.single S (sqOut S ch)).extend S (sqOut S (Chain.single S v))), ?_, oldKey_out S ch, ?_, ?_, ?_, ?_, ?_, ?_⟩
  · simp only [squash, hfold]
    simp [liveChains, List.zipIdx]
  · rw [newKey_out]; exact hw'
  · rw [oldKey_out]; exact hv
  · rw [newKey_out]; exact hv'
  · have k1 : newKey S (sqOut S ch) = c := by rw [newKey_out]; exact hw'
    have k2 : oldKey S (sqOut S (Chain.single S v)) = c := by rw [oldKey_out]; exact hv
    have k3 : newKey S (sqOut S (Chain.single S v)) = d := by rw [newKey_out]; exact hv'
    have e1 : sqStep S { chains := [], temp := [], pk := [] } (sqOut S ch) =
        { chains := [Chain.single S (sqOut S ch)], temp := [], pk := [(c, 0)] } := by
      simp [sqStep, alGet, k1, hc, alInsert, alErase]
    have e2 : [sqOut S ch, sqOut S (Chain.single S v)].foldl (sqStep S) { chains := [], temp := [], pk := [] } =
        { chains := [(Chain.single S (sqOut S ch)).extend S (sqOut S (Chain.single S v))], temp := [],
          pk := alInsert d 0 (alErase c [(c, 0)]) } := by
      simp only [List.foldl_cons, List.foldl_nil, e1]
      simp [sqStep, alGet, k2, k3, hd]
    simp only [squash, e2]
    simp [liveChains]
  · rw [oldKey_out]; exact oldKey_out S ch
  · rw [newKey_out]; exact (newKey_out S _).trans hv'

open SqDemo in
/-- **C61 is violated** by key-moving updates: squashing the squashed rows 1 → 2, 2 → 3 again links
them into 1 → 3, and the row with key 2 keeps its old content. -/
theorem C61_violated : ∃ (pks full : List String) (S : Schema) (T : Table) (rows out out' : List Row),
    SchemaOk pks S ∧ ValidSeq full T (rows.map (changeOf pks S)) ∧ FlagsAgree pks S rows ∧
    squash S rows = some out ∧ squash S out = some out' ∧
    netApply full T (out'.map (changeOf pks S)) ≠ replay full T (rows.map (changeOf pks S)) := by
  refine ⟨["id"], ["id", "v"], S3, T3,
    [r3 (i 1) (i 5) (i 100), r3 (i 2) (i 3) (i 200), r3 (i 5) (i 2) (i 100)],
    _, _, S3_ok, ?_, ?_, rfl, rfl, ?_⟩
  · simp only [List.map_cons, List.map_nil, ValidSeq]
    refine ⟨valid1_of ?_ ?_, valid1_of ?_ ?_, valid1_of ?_ ?_, trivial⟩ <;> decide
  · intro r _ _ _ c c' hc; simp [S3] at hc
  · intro h
    have h1 := congrArg (fun T : Table => (T [i 2]).map (fun r => r "v")) h
    revert h1
    decide

open SqDemo in
/-- A case for `C61_resquash_partial`: an insertion and an update, squashed, followed by a deletion. -/
example : Resquashed S3 ([] ++ [r3 none (i 7) (i 1), r3 (i 7) (i 7) (i 2)] ++ [r3 (i 1) none none])
    ([sqOut S3 ((Chain.single S3 (r3 none (i 7) (i 1))).extend S3 (r3 (i 7) (i 7) (i 2)))] ++
      [r3 (i 1) none none]) := by
  refine .append _ (.squash (.append _ .nil) ?_)
  rfl

end Seafowl.Sync
