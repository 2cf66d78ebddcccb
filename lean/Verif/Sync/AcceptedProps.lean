import Verif.Sync.SchemaProps
import Verif.Sync.ApplyProps

/-!
# What the validation of a schema guarantees for replication (C136)

`SyncSchema::try_new` (sync/schema/mod.rs 19-118) is the only check between the columns a client
describes and the planner.  The theorems on replication assume `SchemaOk`.  Here the two are compared.
-/

namespace Seafowl.Sync

/-- The names of the descriptors with a role code, in the order sent. -/
def sentNames (ds : List RawDesc) (code : Int) : List String :=
  (ds.filter (fun d => decide (d.role = code))).map (·.name)

/-- What a client has to observe beyond the validation. -/
structure Careful (ds : List RawDesc) : Prop where
  /-- no column is described twice -/
  once : ds.Nodup
  /-- the new key columns come in the order of the old ones -/
  order : sentNames ds 0 = sentNames ds 1
  /-- no key column is a value column too -/
  apart : ∀ n ∈ sentNames ds 0, (⟨3, n⟩ : RawDesc) ∉ ds

/-- The code of a role (clade/proto/sync.proto 7-16). -/
def codeOf : Role → Int
  | .oldPk => 0
  | .newPk => 1
  | .changed => 2
  | .value => 3

theorem tryNew_cols {ds : List RawDesc} {fs : List Field} {cols : List SyncCol}
    (h : tryNew ds fs true = .ok cols) : cols = mkCols ds fs := by
  simp only [tryNew] at h
  split at h
  · cases h
  · split at h
    · cases h
    · split at h
      · cases h
      · split at h
        · cases h
        · injection h with h; exact h.symm

/-- The columns of an accepted flat schema are the descriptors sent. -/
theorem descs_sent {ds : List RawDesc} {fs : List Field} {cols : List SyncCol}
    (h : tryNew ds fs true = .ok cols) (hflat : ∀ f ∈ fs, f.nested = 0) :
    (descs cols).map (fun d => (⟨codeOf d.role, d.name⟩ : RawDesc)) = ds := by
  obtain ⟨hl, hv, -⟩ := (C19_accepted_exact_partial ds fs hflat).1 ⟨cols, h⟩
  rw [tryNew_cols h]
  simp only [descs, mkCols, List.map_map]
  have h1 : (ds.zip fs).map Prod.fst = ds := List.map_fst_zip (by omega)
  refine Eq.trans (List.map_congr_left ?_) h1
  intro p hp
  obtain ⟨s0, s1, s2, s3, -⟩ := roleOf_spec p.1.role
  obtain ⟨⟨role, name⟩, f⟩ := p
  simp only [Function.comp, RawDesc.mk.injEq, and_true] at *
  rcases hv.known _ hp with h2 | h2 | h2 | h2 <;> simp only at h2 <;> subst h2 <;> rfl

theorem codeOf_inj : ∀ a b : Role, codeOf a = codeOf b → a = b := by
  intro a b; cases a <;> cases b <;> simp [codeOf]

theorem raw_inj {a b : Desc} (h : (⟨codeOf a.role, a.name⟩ : RawDesc) = ⟨codeOf b.role, b.name⟩) : a = b := by
  obtain ⟨ra, na⟩ := a
  obtain ⟨rb, nb⟩ := b
  simp only [RawDesc.mk.injEq] at h
  rw [codeOf_inj _ _ h.1, h.2]

theorem names_sent (S : Schema) (role : Role) :
    sentNames (S.map (fun d => (⟨codeOf d.role, d.name⟩ : RawDesc))) (codeOf role) = names S role := by
  induction S with
  | nil => rfl
  | cons d S ih =>
    simp only [sentNames, names] at ih
    by_cases hd : d.role = role
    · subst hd
      simp [sentNames, names, ih]
    · have : codeOf d.role ≠ codeOf role := fun h => hd (codeOf_inj _ _ h)
      simp [sentNames, names, ih, hd, this]

theorem mem_sent (S : Schema) (role : Role) (n : String) :
    (⟨codeOf role, n⟩ : RawDesc) ∈ S.map (fun d => (⟨codeOf d.role, d.name⟩ : RawDesc)) ↔ Desc.mk role n ∈ S := by
  constructor
  · intro h
    obtain ⟨d, hd, he⟩ := List.mem_map.1 h
    have : d = ⟨role, n⟩ := raw_inj he
    exact this ▸ hd
  · intro h
    exact List.mem_map.2 ⟨_, h, rfl⟩

theorem nodup_sent (S : Schema) :
    (S.map (fun d => (⟨codeOf d.role, d.name⟩ : RawDesc))).Nodup ↔ S.Nodup := by
  simp only [List.Nodup, List.pairwise_map]
  constructor
  · intro h
    exact h.imp (fun hab e => hab (by rw [e]))
  · intro h
    exact h.imp (fun hab e => hab (raw_inj e))

/-- **C136**, as far as it holds: a change set that passes the validation is one the replication
theorems speak of iff the client observed three rules the validation does not check: no column twice,
the key columns in one order, and no key column among the values.  Then there is a key, and it is the one
sent. -/
theorem C136_accepted_partial (ds : List RawDesc) (fs : List Field) (cols : List SyncCol)
    (h : tryNew ds fs true = .ok cols) (hflat : ∀ f ∈ fs, f.nested = 0) :
    ((∃ pks, SchemaOk pks (descs cols)) ↔ Careful ds) ∧
    (∀ pks, SchemaOk pks (descs cols) → pks = sentNames ds 0 ∧ pks ≠ []) := by
  obtain ⟨hl, hv, hk⟩ := (C19_accepted_exact_partial ds fs hflat).1 ⟨cols, h⟩
  have hd := descs_sent h hflat
  have h0 : sentNames ds 0 = names (descs cols) .oldPk := by rw [← hd]; exact names_sent _ .oldPk
  have h1 : sentNames ds 1 = names (descs cols) .newPk := by rw [← hd]; exact names_sent _ .newPk
  have h3 : ∀ n, (⟨3, n⟩ : RawDesc) ∈ ds ↔ Desc.mk .value n ∈ descs cols := by
    intro n
    have hx := mem_sent (descs cols) .value n
    rw [hd] at hx
    exact hx
  have h2 : ∀ n, (⟨2, n⟩ : RawDesc) ∈ ds ↔ Desc.mk .changed n ∈ descs cols := by
    intro n
    have hx := mem_sent (descs cols) .changed n
    rw [hd] at hx
    exact hx
  have hn : ds.Nodup ↔ (descs cols).Nodup := by
    have hx := nodup_sent (descs cols)
    rw [hd] at hx
    exact hx
  have hne : sentNames ds 0 ≠ [] := by
    obtain ⟨k, p, hp, hr, hnm, -⟩ := hk.exist
    have : p.1 ∈ ds := (List.of_mem_zip hp).1
    have hm : p.1.name ∈ sentNames ds 0 :=
      List.mem_map.2 ⟨p.1, List.mem_filter.2 ⟨this, by simp [hr]⟩, rfl⟩
    intro he
    rw [he] at hm
    cases hm
  refine ⟨⟨?_, ?_⟩, ?_⟩
  · rintro ⟨pks, hS⟩
    refine ⟨hn.2 hS.nodup, by rw [h0, h1, hS.oldPk, hS.newPk], ?_⟩
    intro n hm hvn
    rw [h0, hS.oldPk] at hm
    exact hS.noPk n ((h3 n).1 hvn) hm
  · intro hc
    refine ⟨sentNames ds 0, hn.1 hc.once, h0.symm, by rw [hc.order, h1], ?_, ?_⟩
    · intro c hm
      have hm' := (h2 c).2 hm
      obtain ⟨i, hi, hg⟩ := List.mem_iff_getElem.1 hm'
      have hz : (ds[i], fs[i]'(by omega)) ∈ ds.zip fs := by
        apply List.mem_iff_getElem.2
        refine ⟨i, by simp only [List.length_zip]; omega, by simp⟩
      obtain ⟨d, hdm, hr, hnm⟩ := hv.changedValue _ hz (by simp [hg])
      simp only [hg] at hnm
      apply (h3 c).1
      have : d = ⟨3, c⟩ := by
        obtain ⟨dr, dn⟩ := d
        simp only at hr hnm
        rw [hr, hnm]
      exact this ▸ hdm
    · intro c hvc hm
      exact hc.apart c hm ((h3 c).2 hvc)
  · intro pks hS
    have : pks = sentNames ds 0 := by rw [h0, hS.oldPk]
    exact ⟨this, this ▸ hne⟩

/-- **C136**: from the wire to the table.  A change set with one key column that passes the validation,
describes every column of the table once and whose key is not a value too, gives the table with the
changes applied. -/
theorem C136_wire (ds : List RawDesc) (fs : List Field) (cols : List SyncCol)
    (h : tryNew ds fs true = .ok cols) (hflat : ∀ f ∈ fs, f.nested = 0) (hc : Careful ds) (n : String)
    (hkey : sentNames ds 0 = [n]) (full : List String) (hn : n ∈ full)
    (hall : ∀ c ∈ full, c = n ∨ ((⟨3, c⟩ : RawDesc) ∈ ds ∧ (⟨2, c⟩ : RawDesc) ∉ ds))
    (base out : List TRow) (hb : Keyed [n] full base) (rows : List Row)
    (hnews : (rows.map (changeOf [n] (descs cols))).Pairwise (fun a b => a.new ≠ none → a.new ≠ b.new))
    (ho : flushRows full [(descs cols, rows)] base = some out) :
    Keyed [n] full out ∧
    tableOf [n] out = netApply full (tableOf [n] base) (rows.map (changeOf [n] (descs cols))) := by
  obtain ⟨hiff, hpk⟩ := C136_accepted_partial ds fs cols h hflat
  obtain ⟨pks, hS⟩ := hiff.2 hc
  have hp := (hpk pks hS).1
  rw [hkey] at hp
  subst hp
  have hd := descs_sent h hflat
  have h3 : ∀ m, (⟨3, m⟩ : RawDesc) ∈ ds ↔ Desc.mk .value m ∈ descs cols := by
    intro m
    have hx := mem_sent (descs cols) .value m
    rw [hd] at hx
    exact hx
  have h2 : ∀ m, (⟨2, m⟩ : RawDesc) ∈ ds ↔ Desc.mk .changed m ∈ descs cols := by
    intro m
    have hx := mem_sent (descs cols) .changed m
    rw [hd] at hx
    exact hx
  refine C15_single_key_full_rows n hS hn base out hb rows ?_ hnews ho
  intro c hcf
  rcases hall c hcf with h' | ⟨h', h''⟩
  · exact Or.inl h'
  · exact Or.inr ⟨(h3 c).1 h', fun hx => h'' ((h2 c).2 hx)⟩

/-! ### a key column that is a value too -/

/-- **C136 is violated** by a key that is described as a value too, for all change sets: the row written
for an insertion carries the value sent in place of the key, whatever the key. -/
theorem C136_violated_value_key (S : Schema) (n : String) (hk : names S .oldPk = [n])
    (hval : Desc.mk .value n ∈ S) (hch : Desc.mk .changed n ∉ S) (full : List String) (hn : n ∈ full)
    (base out : List TRow) (rows : List Row) (r : Row) (hr : r ∈ rows)
    (hins : r ⟨.oldPk, n⟩ = none ∧ r ⟨.newPk, n⟩ ≠ none)
    (hfree : ∀ b ∈ base, b n ≠ r ⟨.newPk, n⟩)
    (ho : flushRows full [(S, rows)] base = some out) :
    ∃ o ∈ out, o n = r ⟨.value, n⟩ ∧
      (∀ c ∈ full, Desc.mk .value c ∈ S → Desc.mk .changed c ∉ S → o c = r ⟨.value, c⟩) := by
  obtain ⟨ns, hns, rfl⟩ := flushRows_one ho
  simp only [normalize, hk, List.head?_cons, Option.some.injEq] at hns
  have hs : (⟨fun c => r ⟨.newPk, c⟩, r, true⟩ : NRow) ∈ ns := by
    rw [← hns]
    refine List.mem_flatMap.2 ⟨r, List.mem_filter.2 ⟨hr, ?_⟩, ?_⟩
    · cases hx : r ⟨.newPk, n⟩ with
      | none => exact absurd hx hins.2
      | some v => simp
    · cases hx : r ⟨.newPk, n⟩ with
      | none => exact absurd hx hins.2
      | some v => simp [normRow, hins.1, hx]
  have hcol : ∀ c ∈ full, Desc.mk .value c ∈ S → Desc.mk .changed c ∉ S →
      (if c ∈ full then applyCol S c (none, some (⟨fun c => r ⟨.newPk, c⟩, r, true⟩ : NRow)) else none) =
        r ⟨.value, c⟩ := by
    intro c hc hv hg
    simp [hc, applyCol, has, hv, hg]
  refine ⟨fun c => if c ∈ full then applyCol S c (none, some (⟨fun c => r ⟨.newPk, c⟩, r, true⟩ : NRow)) else none,
    ?_, hcol n hn hval hch, hcol⟩
  simp only [applySyncs, hk]
  refine List.mem_map.2 ⟨(none, some ⟨fun c => r ⟨.newPk, c⟩, r, true⟩), List.mem_filter.2 ⟨?_, rfl⟩, rfl⟩
  refine List.mem_append_right _ (List.mem_map.2 ⟨_, List.mem_filter.2 ⟨hs, ?_⟩, rfl⟩)
  simp only [Bool.not_eq_true', List.any_eq_false]
  intro b hb
  simp [baseMatch, hfree b hb]

/-- **C136 is violated**, corollary: if a row is inserted whose value in the key column is not its key, and
neither the table nor the change set has that key in the column, the key sent is in no row. -/
theorem C136_violated_lost (S : Schema) (n : String) (hk : names S .oldPk = [n])
    (hval : Desc.mk .value n ∈ S) (hch : Desc.mk .changed n ∉ S) (full : List String) (hn : n ∈ full)
    (base out : List TRow) (rows : List Row) (r : Row)
    (hfree : ∀ b ∈ base, b n ≠ r ⟨.newPk, n⟩)
    (hother : ∀ r' ∈ rows, r' ⟨.value, n⟩ ≠ r ⟨.newPk, n⟩)
    (ho : flushRows full [(S, rows)] base = some out) :
    ∀ o ∈ out, o n ≠ r ⟨.newPk, n⟩ := by
  obtain ⟨ns, hns, rfl⟩ := flushRows_one ho
  simp only [normalize, hk, List.head?_cons, Option.some.injEq] at hns
  have hnv : ∀ s ∈ ns, ∃ r' ∈ rows, s.val = r' := by
    intro s hs
    rw [← hns] at hs
    obtain ⟨r', hr', hs'⟩ := List.mem_flatMap.1 hs
    refine ⟨r', (List.mem_filter.1 hr').1, ?_⟩
    simp only [normRow] at hs'
    split at hs'
    · simp only [List.mem_singleton] at hs'; rw [hs']
    · split at hs'
      · simp only [List.mem_singleton] at hs'; rw [hs']
      · split at hs'
        · simp only [List.mem_cons, List.not_mem_nil, or_false] at hs'
          rcases hs' with rfl | rfl <;> rfl
        · simp only [List.mem_singleton] at hs'; rw [hs']
  intro o ho'
  simp only [applySyncs] at ho'
  obtain ⟨p, hp, rfl⟩ := List.mem_map.1 ho'
  have hp' := (List.mem_filter.1 hp).1
  simp only [hn, if_true, applyCol, has, hval, hch, decide_true, decide_false, Bool.false_eq_true, if_false]
  have hcase : (∃ b ∈ base, p = (some b, none)) ∨ (∃ s ∈ ns, p.2 = some s) := by
    simp only [baseJoin, List.mem_append, List.mem_flatMap, List.mem_map] at hp'
    rcases hp' with ⟨b, hb, hm⟩ | ⟨s, hs, rfl⟩
    · split at hm
      · obtain ⟨s, hs, rfl⟩ := List.mem_map.1 hm
        exact Or.inr ⟨s, (List.mem_filter.1 hs).1, rfl⟩
      · simp only [List.mem_singleton] at hm
        exact Or.inl ⟨b, hb, hm⟩
    · exact Or.inr ⟨s, (List.mem_filter.1 hs).1, rfl⟩
  rcases hcase with ⟨b, hb, rfl⟩ | ⟨s, hs, he⟩
  · exact hfree b hb
  · rw [he]
    obtain ⟨r', hr', hv⟩ := hnv s hs
    simp only [hv]
    exact hother r' hr'

/-! ### concrete cases -/

namespace AccDemo
open SqDemo

/-- The columns of a client that sends the whole row as values, the key included. -/
def ds : List RawDesc := [⟨0, "id"⟩, ⟨1, "id"⟩, ⟨3, "id"⟩, ⟨3, "v"⟩]

/-- Their fields. -/
def fs : List Field := [⟨"o", .other 1, 0⟩, ⟨"n", .other 1, 0⟩, ⟨"i", .other 1, 0⟩, ⟨"v", .other 1, 0⟩]

/-- A change. -/
def chg (o n i v : Cell) : Row :=
  row [(⟨.oldPk, "id"⟩, o), (⟨.newPk, "id"⟩, n), (⟨.value, "id"⟩, i), (⟨.value, "v"⟩, v)]

/-- The columns of a careful client: two keys in one order, two values, one with a flag. -/
def careful : List RawDesc := [⟨0, "a"⟩, ⟨0, "b"⟩, ⟨1, "a"⟩, ⟨1, "b"⟩, ⟨3, "v"⟩, ⟨2, "v"⟩, ⟨3, "w"⟩]

/-- Their fields. -/
def carefulFs : List Field :=
  [⟨"o1", .other 1, 0⟩, ⟨"o2", .other 2, 0⟩, ⟨"n1", .other 1, 0⟩, ⟨"n2", .other 2, 0⟩, ⟨"v", .other 1, 0⟩,
    ⟨"c", .boolean, 0⟩, ⟨"w", .other 3, 0⟩]

end AccDemo

open AccDemo SqDemo in
/-- **C136 is violated**: a schema with the key among the values is accepted.  Two insertions under the
keys 1 and 2 with 7 in the value column of the key give two rows with the key 7; a deletion of the key 1
then deletes nothing, and one of the key 7 both. -/
theorem C136_violated_example : ∃ cols out, tryNew ds fs true = .ok cols ∧ (∀ f ∈ fs, f.nested = 0) ∧
    ¬ Careful ds ∧
    flushRows ["id", "v"] [(descs cols, [chg none (i 1) (i 7) (i 10), chg none (i 2) (i 7) (i 20)])] [] = some out ∧
    out.map (fun o => (o "id", o "v")) = [(i 7, i 10), (i 7, i 20)] ∧
    (flushRows ["id", "v"] [(descs cols, [chg (i 1) none none none])] out).map
      (fun l => l.map (fun o => (o "id", o "v"))) = some [(i 7, i 10), (i 7, i 20)] ∧
    (flushRows ["id", "v"] [(descs cols, [chg (i 7) none none none])] out).map
      (fun l => l.map (fun o => (o "id", o "v"))) = some [] := by
  refine ⟨_, _, rfl, by decide, ?_, rfl, by decide +kernel, by decide +kernel, by decide +kernel⟩
  intro h
  exact h.apart "id" (by decide) (by decide)

open AccDemo in
/-- A careful client with two keys, a flagged value and a plain one passes, and the hypotheses of
`C136_accepted_partial` hold. -/
example : ∃ cols, tryNew careful carefulFs true = .ok cols ∧ (∀ f ∈ carefulFs, f.nested = 0) ∧ Careful careful ∧
    SchemaOk ["a", "b"] (descs cols) := by
  have hc : Careful careful := ⟨by decide, by decide, by decide⟩
  refine ⟨_, rfl, by decide, hc, ?_⟩
  obtain ⟨h1, h2⟩ := C136_accepted_partial careful carefulFs _ rfl (by decide)
  obtain ⟨pks, hS⟩ := h1.2 hc
  have := (h2 pks hS).1
  have he : sentNames careful 0 = ["a", "b"] := by decide
  rw [he] at this
  exact this ▸ hS

open AccDemo SqDemo in
/-- The hypotheses of `C136_violated_value_key` and `C136_violated_lost`. -/
example : names [⟨.oldPk, "id"⟩, ⟨.newPk, "id"⟩, ⟨.value, "id"⟩, ⟨.value, "v"⟩] .oldPk = ["id"] ∧
    (chg none (i 1) (i 7) (i 10)) ⟨.oldPk, "id"⟩ = none ∧ (chg none (i 1) (i 7) (i 10)) ⟨.newPk, "id"⟩ ≠ none ∧
    (flushRows ["id", "v"] [([⟨.oldPk, "id"⟩, ⟨.newPk, "id"⟩, ⟨.value, "id"⟩, ⟨.value, "v"⟩],
      [chg none (i 1) (i 7) (i 10)])] []).isSome := by decide +kernel

open SqDemo in
/-- The hypotheses of `C136_wire`: the plain one-key schema with the changes of `ApDemo.swap`. -/
example : Careful [⟨0, "id"⟩, ⟨1, "id"⟩, ⟨3, "v"⟩] ∧ sentNames [⟨0, "id"⟩, ⟨1, "id"⟩, ⟨3, "v"⟩] 0 = ["id"] ∧
    Keyed ["id"] ["id", "v"] ApDemo.base ∧
    ∃ cols, tryNew [⟨0, "id"⟩, ⟨1, "id"⟩, ⟨3, "v"⟩] [⟨"o", .other 1, 0⟩, ⟨"n", .other 1, 0⟩, ⟨"v", .other 1, 0⟩] true =
      .ok cols ∧ (flushRows ["id", "v"] [(descs cols, ApDemo.swap)] ApDemo.base).isSome :=
  ⟨⟨by decide, by decide, by decide⟩, by decide, ApDemo.base_keyed, _, rfl, by decide +kernel⟩

end Seafowl.Sync
