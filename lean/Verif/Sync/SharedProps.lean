import Mathlib.Data.List.Induction
import Mathlib.Data.List.Nodup
import Verif.Sync.PruneProps
import Verif.Sync.Shared

/-!
# Replication into a table that is written to by others at the same time: properties (C135)
-/

namespace Seafowl.Shared

open Seafowl.Sync

/-! ### specification -/

/-- The effect of a writer that has the table for itself: the changes are applied to all rows (`flushRows`; C16 says
that this is the replay of the changes), rows are added, qualifying rows are changed. -/
def alone (full : List String) : Work → List TRow → Option (List TRow)
  | .flush items, t => flushRows full items t
  | .insert rows, t => some (t ++ rows)
  | .modify p g, t => some (t.filterMap (fun x => if p x then g x else some x))

/-- Writers one after the other. -/
def serially (full : List String) (works : List Work) : List Nat → List TRow → Option (List TRow)
  | [], t => some t
  | i :: is, t => (works[i]?).bind (fun w => (alone full w t).bind (serially full works is))

/-- The key of the row is an old or a new key of a change. -/
def Affects (pks : List String) (items : List SItem) (x : TRow) : Prop :=
  (∀ n ∈ pks, (x n).isSome) ∧
    ∃ it ∈ items, ∃ r ∈ it.2, ∃ role, (role = .oldPk ∨ role = .newPk) ∧ ∀ n ∈ pks, r ⟨role, n⟩ = x n

/-- The key of the row is the new key of a change. -/
def Writes (pks : List String) (items : List SItem) (y : TRow) : Prop :=
  (∃ n ∈ pks, (y n).isSome) ∧ ∃ it ∈ items, ∃ r ∈ it.2, ∀ n ∈ pks, r ⟨.newPk, n⟩ = y n

/-- The rows that a writer changes or removes. -/
def Concerns (pks : List String) : Work → TRow → Prop
  | .flush items, x => Affects pks items x
  | .insert _, _ => False
  | .modify p _, x => p x = true

/-- The first writer does not make rows that concern the second. -/
def Apart (pks : List String) (w w' : Work) : Prop :=
  match w with
  | .flush items => ∀ y, Writes pks items y → ¬ Concerns pks w' y
  | .insert rows => ∀ y ∈ rows, ¬ Concerns pks w' y
  | .modify p g => ∀ x y, p x = true → g x = some y → ¬ Concerns pks w' x → ¬ Concerns pks w' y

/-- Only columns of the table. -/
def Cols (full : List String) (x : TRow) : Prop := ∀ c, c ∉ full → x c = none

/-- The statistics of the file are bounds of the values in it. -/
def SoundFile (f : DFile) : Prop :=
  ∀ r ∈ f.rows, ∀ c v, r c = some v →
    (∀ m, f.min c = some m → m.le v = true) ∧ (∀ m, f.max c = some m → v.le m = true)

/-- What the writers write fits the table, and files that UPDATE or DELETE leave alone have no qualifying rows. -/
def Fits (sys : Sys) (pks : List String) (i : Nat) : Work → Prop
  | .flush items => ∀ it ∈ items, SchemaOk pks it.1
  | .insert rows => ∀ x ∈ rows, Cols sys.full x
  | .modify p g => (∀ x y, p x = true → g x = some y → Cols sys.full x → Cols sys.full y) ∧
      ∀ f, SoundFile f → sys.prune i f = false → ∀ x ∈ f.rows, p x = false

/-- The assumptions about the table and the library: the new files hold the rows, with sound statistics (C27, C28). -/
structure Sound (sys : Sys) (pks : List String) (init : List DFile) : Prop where
  nonempty : pks ≠ []
  key : ∀ n ∈ pks, n ∈ sys.full
  cut : ∀ rows, (fileRows (sys.cut rows)).Perm rows ∧ ∀ f ∈ sys.cut rows, SoundFile f
  init : ∀ f ∈ init, SoundFile f ∧ ∀ x ∈ f.rows, Cols sys.full x
  fits : ∀ i w, sys.works[i]? = some w → Fits sys pks i w

/-- The writer has loaded the table and has not yet committed. -/
def Stage.open : Stage → Prop
  | .ready _ _ _ => True
  | _ => False

/-- When a writer commits, it does not make rows that concern a writer that is at work at that time. -/
def Quiet (sys : Sys) (pks : List String) (init : List DFile) (evs : List Ev) : Prop :=
  ∀ pre j post, evs = pre ++ .run j :: post → ((run sys init pre).stage j).open →
    ∀ i, i ≠ j → ((run sys init pre).stage i).open →
      ∀ w w', sys.works[j]? = some w → sys.works[i]? = some w' → Apart pks w w'

/-! ### the rows that a writer does not touch -/

variable {pks full : List String}

theorem flatMap_perm {α β : Type} (f : α → List β) {a b : List α} (h : a.Perm b) :
    (a.flatMap f).Perm (b.flatMap f) := by
  induction h with
  | nil => exact List.Perm.refl _
  | cons x _ ih => simpa only [List.flatMap_cons] using ih.append_left _
  | swap x y l =>
    simp only [List.flatMap_cons, ← List.append_assoc]
    exact List.perm_append_comm.append_right _
  | trans _ _ h1 h2 => exact h1.trans h2

theorem flushRows_some {items : List SItem} {base out : List TRow} (h : flushRows full items base = some out) :
    ∃ S rows ns, squashSyncs items = some (S, rows) ∧ normalize S rows = some ns ∧
      out = applySyncs S full base ns ∧ ∀ b, flushRows full items b = some (applySyncs S full b ns) := by
  simp only [flushRows] at h ⊢
  split at h
  · cases h
  · next S rows hsq =>
    split at h
    · cases h
    · next ns hns =>
      injection h with h
      exact ⟨S, rows, ns, hsq, hns, h.symm, fun b => by simp only⟩

/-- The keys of the normalised changes are keys of the items. -/
theorem norm_keys {items : List SItem} (hpk : pks ≠ []) (hok : ∀ it ∈ items, SchemaOk pks it.1) {S : Schema}
    {rows : List Row} {ns : List NRow} (hsq : squashSyncs items = some (S, rows)) (hns : normalize S rows = some ns) :
    SchemaOk pks S ∧ ∀ s ∈ ns,
      (∃ it ∈ items, ∃ r ∈ it.2, ∃ role, (role = .oldPk ∨ role = .newPk) ∧ ∀ n ∈ pks, r ⟨role, n⟩ = s.pk n) ∧
      (s.upsert = true → (∃ n ∈ pks, (s.pk n).isSome) ∧
        ∃ it ∈ items, ∃ r ∈ it.2, ∀ n ∈ pks, r ⟨.newPk, n⟩ = s.pk n) := by
  have hmerge : SchemaOk pks S ∧ ∀ r ∈ rows,
      (∃ it ∈ items, ∃ r' ∈ it.2, ∀ n ∈ pks, r ⟨.oldPk, n⟩ = r' ⟨.oldPk, n⟩) ∧
      (∃ it ∈ items, ∃ r' ∈ it.2, ∀ n ∈ pks, r ⟨.newPk, n⟩ = r' ⟨.newPk, n⟩) := by
    cases items with
    | nil => cases hsq
    | cons it0 rest =>
      exact mergeAll_keys (fun role r => ∃ it ∈ it0 :: rest, ∃ r' ∈ it.2, ∀ n ∈ pks, r ⟨role, n⟩ = r' ⟨role, n⟩)
        (fun role r r' he ⟨it, hit, r2, hr2, h2⟩ => ⟨it, hit, r2, hr2, fun n hn => (he n hn).trans (h2 n hn)⟩)
        rest it0 (S, rows) (hok it0 (by simp)) (fun it hit => hok it (by simp [hit]))
        (fun it hit r hr => ⟨⟨it, hit, r, hr, fun _ _ => rfl⟩, ⟨it, hit, r, hr, fun _ _ => rfl⟩⟩) hsq
  obtain ⟨hS, hkeys⟩ := hmerge
  refine ⟨hS, ?_⟩
  intro s hs
  simp only [normalize, hS.oldPk] at hns
  cases pks with
  | nil => exact absurd rfl hpk
  | cons n0 rest =>
    simp only [List.head?_cons] at hns
    injection hns with hns
    subst hns
    obtain ⟨r, hr, hsr⟩ := List.mem_flatMap.1 hs
    obtain ⟨hr, -⟩ := List.mem_filter.1 hr
    obtain ⟨⟨it1, hit1, r1, hr1, h1⟩, it2, hit2, r2, hr2, h2⟩ := hkeys r hr
    have old : s.pk = (fun c => r ⟨.oldPk, c⟩) → s.upsert = false →
        (∃ it ∈ items, ∃ r ∈ it.2, ∃ role, (role = .oldPk ∨ role = .newPk) ∧ ∀ n ∈ n0 :: rest, r ⟨role, n⟩ = s.pk n) ∧
        (s.upsert = true → (∃ n ∈ n0 :: rest, (s.pk n).isSome) ∧
          ∃ it ∈ items, ∃ r ∈ it.2, ∀ n ∈ n0 :: rest, r ⟨.newPk, n⟩ = s.pk n) := by
      intro hpk' hup
      refine ⟨⟨it1, hit1, r1, hr1, .oldPk, Or.inl rfl, fun n hn => by rw [hpk']; exact (h1 n hn).symm⟩, fun h => ?_⟩
      rw [hup] at h
      cases h
    have new : s.pk = (fun c => r ⟨.newPk, c⟩) → (r ⟨.newPk, n0⟩).isSome = true →
        (∃ it ∈ items, ∃ r ∈ it.2, ∃ role, (role = .oldPk ∨ role = .newPk) ∧ ∀ n ∈ n0 :: rest, r ⟨role, n⟩ = s.pk n) ∧
        (s.upsert = true → (∃ n ∈ n0 :: rest, (s.pk n).isSome) ∧
          ∃ it ∈ items, ∃ r ∈ it.2, ∀ n ∈ n0 :: rest, r ⟨.newPk, n⟩ = s.pk n) := by
      intro hpk' hw
      exact ⟨⟨it2, hit2, r2, hr2, .newPk, Or.inr rfl, fun n hn => by rw [hpk']; exact (h2 n hn).symm⟩,
        fun _ => ⟨⟨n0, by simp, by rw [hpk']; exact hw⟩, it2, hit2, r2, hr2, fun n hn => by rw [hpk']; exact (h2 n hn).symm⟩⟩
    simp only [normRow] at hsr
    split at hsr
    · next h =>
      simp only [Bool.and_eq_true] at h
      simp only [List.mem_singleton] at hsr; subst hsr; exact new rfl h.2
    · split at hsr
      · next h =>
        simp only [Bool.and_eq_true] at h
        simp only [List.mem_singleton] at hsr; subst hsr; exact new rfl h.1.2
      · split at hsr
        · next h =>
          simp only [Bool.and_eq_true] at h
          simp only [List.mem_cons, List.not_mem_nil, or_false] at hsr
          rcases hsr with rfl | rfl
          · exact old rfl rfl
          · exact new rfl h.1.2
        · simp only [List.mem_singleton] at hsr; subst hsr; exact old rfl rfl

theorem applySyncs_perm {S : Schema} {a b : List TRow} (h : a.Perm b) (ns : List NRow) :
    (applySyncs S full a ns).Perm (applySyncs S full b ns) := by
  simp only [applySyncs, baseJoin]
  refine ((List.Perm.append (flatMap_perm _ h) ?_).filter _).map _
  have : (fun s => !a.any (fun x => baseMatch (names S .oldPk) x s)) =
      (fun s => !b.any (fun x => baseMatch (names S .oldPk) x s)) := by
    funext s
    rw [h.any_eq]
  rw [this]

theorem applySyncs_rest {S : Schema} (hS : SchemaOk pks S) {a b : List TRow} {ns : List NRow}
    (hc : ∀ x ∈ b, Cols full x) (hb : ∀ x ∈ b, ∀ s ∈ ns, baseMatch pks x s = false) :
    (applySyncs S full (a ++ b) ns).Perm (applySyncs S full a ns ++ b) := by
  have ho : ∀ base, applySyncs S full base ns =
      ((baseJoin pks base ns).filter keepJoined).map (outRow S full) := by
    intro base; simp only [applySyncs, hS.oldPk]; rfl
  rw [ho, ho]
  have h1 : b.flatMap (fun x =>
      if ns.any (baseMatch pks x) then (ns.filter (baseMatch pks x)).map (fun s => (some x, some s))
      else [((some x, none) : Option TRow × Option NRow)]) = b.map (fun x => (some x, none)) := by
    clear ho
    induction b with
    | nil => rfl
    | cons x xs ih =>
      have : ns.any (baseMatch pks x) = false := by
        rw [List.any_eq_false]
        intro s hs h
        rw [hb x (by simp) s hs] at h
        cases h
      rw [List.flatMap_cons, this, ih (fun y hy => hc y (by simp [hy])) (fun y hy => hb y (by simp [hy]))]
      rfl
  have h2 : ns.filter (fun s => !(a ++ b).any (fun x => baseMatch pks x s)) =
      ns.filter (fun s => !a.any (fun x => baseMatch pks x s)) := by
    apply List.filter_congr
    intro s hs
    rw [List.any_append]
    have : b.any (fun x => baseMatch pks x s) = false := by
      rw [List.any_eq_false]
      intro x hx h
      rw [hb x hx s hs] at h
      cases h
    rw [this, Bool.or_false]
  have h3 : ((b.map (fun x => ((some x, none) : Option TRow × Option NRow))).filter keepJoined).map (outRow S full) =
      b := by
    rw [List.filter_map, List.map_map]
    have : b.filter (keepJoined ∘ fun x => ((some x, none) : Option TRow × Option NRow)) = b :=
      List.filter_eq_self.2 (fun _ _ => rfl)
    rw [this]
    conv => rhs; rw [← List.map_id b]
    apply List.map_congr_left
    intro x hx
    exact outRow_none x (hc x hx)
  simp only [baseJoin, List.flatMap_append, h1, h2, List.filter_append, List.map_append, List.append_assoc, h3]
  exact List.Perm.append_left _ List.perm_append_comm

theorem applySyncs_mem {S : Schema} (hS : SchemaOk pks S) (hpf : ∀ n ∈ pks, n ∈ full) {base : List TRow} {ns : List NRow}
    (hc : ∀ x ∈ base, Cols full x) {y : TRow} (hy : y ∈ applySyncs S full base ns) :
    Cols full y ∧ (y ∈ base ∨ ∃ s ∈ ns, s.upsert = true ∧ ∀ n ∈ pks, y n = s.pk n) := by
  have key : ∀ (b : Option TRow) (s : NRow), ∀ n ∈ pks, outRow S full (b, some s) n = s.pk n := by
    intro b s n hn
    have h := tkey_write hpf (S := S) (b.getD nullRow) s
    rw [outRow_some hS]
    exact List.map_inj_left.1 h n hn
  have ho : applySyncs S full base ns = ((baseJoin pks base ns).filter keepJoined).map (outRow S full) := by
    simp only [applySyncs, hS.oldPk]; rfl
  rw [ho] at hy
  obtain ⟨p, hp, rfl⟩ := List.mem_map.1 hy
  refine ⟨fun c hcn => by simp only [outRow, hcn, if_false], ?_⟩
  obtain ⟨hp, hk⟩ := List.mem_filter.1 hp
  simp only [baseJoin, List.mem_append] at hp
  rcases hp with hp | hp
  · obtain ⟨b, hb, hp⟩ := List.mem_flatMap.1 hp
    split at hp
    · obtain ⟨s, hs, rfl⟩ := List.mem_map.1 hp
      exact Or.inr ⟨s, (List.mem_filter.1 hs).1, hk, key (some b) s⟩
    · simp only [List.mem_singleton] at hp
      subst hp
      rw [outRow_none b (hc b hb)]
      exact Or.inl hb
  · obtain ⟨s, hs, rfl⟩ := List.mem_map.1 hp
    exact Or.inr ⟨s, (List.mem_filter.1 hs).1, hk, key none s⟩

/-! ### the three kinds of writers -/

theorem rewrite_eq_alone (w : Work) (t : List TRow) : rewrite full w t = alone full w t := by
  cases w <;> rfl

theorem alone_perm {w : Work} {a b out : List TRow} (h : a.Perm b) (ha : alone full w a = some out) :
    ∃ out', alone full w b = some out' ∧ out.Perm out' := by
  cases w with
  | flush items =>
    obtain ⟨S, rows, ns, -, -, rfl, hall⟩ := flushRows_some ha
    exact ⟨_, hall b, applySyncs_perm h ns⟩
  | insert rows =>
    simp only [alone, Option.some.injEq] at ha
    subst ha
    exact ⟨_, rfl, h.append_right _⟩
  | modify p g =>
    simp only [alone, Option.some.injEq] at ha
    subst ha
    exact ⟨_, rfl, h.filterMap _⟩

theorem filterMap_rest (p : TRow → Bool) (g : TRow → Option TRow) (b : List TRow) (h : ∀ x ∈ b, ¬ p x = true) :
    b.filterMap (fun x => if p x then g x else some x) = b := by
  induction b with
  | nil => rfl
  | cons x xs ih =>
    rw [List.filterMap_cons, if_neg (h x (by simp))]
    simp only [ih (fun y hy => h y (by simp [hy]))]

theorem alone_rest {sys : Sys} {i : Nat} {w : Work} (hpk : pks ≠ []) (hf : Fits sys pks i w) {a b out : List TRow}
    (hc : ∀ x ∈ b, Cols sys.full x) (hb : ∀ x ∈ b, ¬ Concerns pks w x) (ha : alone sys.full w a = some out) :
    ∃ out', alone sys.full w (a ++ b) = some out' ∧ out'.Perm (out ++ b) := by
  cases w with
  | flush items =>
    obtain ⟨S, rows, ns, hsq, hns, rfl, hall⟩ := flushRows_some ha
    obtain ⟨hS, hk⟩ := norm_keys hpk hf hsq hns
    refine ⟨_, hall _, applySyncs_rest hS hc ?_⟩
    intro x hx s hs
    cases hm : baseMatch pks x s with
    | false => rfl
    | true =>
      exfalso
      simp only [baseMatch, List.all_eq_true, Bool.and_eq_true, decide_eq_true_eq] at hm
      obtain ⟨⟨it, hit, r, hr, role, hrole, he⟩, -⟩ := hk s hs
      exact hb x hx ⟨fun n hn => (hm n hn).2, it, hit, r, hr, role, hrole,
        fun n hn => (he n hn).trans (hm n hn).1.symm⟩
  | insert rows =>
    simp only [alone, Option.some.injEq] at ha
    subst ha
    refine ⟨_, rfl, ?_⟩
    rw [List.append_assoc, List.append_assoc]
    exact List.Perm.append_left _ List.perm_append_comm
  | modify p g =>
    simp only [alone, Option.some.injEq] at ha
    subst ha
    refine ⟨_, rfl, ?_⟩
    rw [List.filterMap_append, filterMap_rest p g b hb]

theorem alone_cols {sys : Sys} {i : Nat} {w : Work} (hpk : pks ≠ []) (hpf : ∀ n ∈ pks, n ∈ sys.full)
    (hf : Fits sys pks i w) {a out : List TRow} (hc : ∀ x ∈ a, Cols sys.full x) (ha : alone sys.full w a = some out) :
    ∀ y ∈ out, Cols sys.full y := by
  intro y hy
  cases w with
  | flush items =>
    obtain ⟨S, rows, ns, hsq, hns, rfl, -⟩ := flushRows_some ha
    exact (applySyncs_mem (norm_keys hpk hf hsq hns).1 hpf hc hy).1
  | insert rows =>
    simp only [alone, Option.some.injEq] at ha
    subst ha
    rcases List.mem_append.1 hy with hy | hy
    · exact hc y hy
    · exact hf y hy
  | modify p g =>
    simp only [alone, Option.some.injEq] at ha
    subst ha
    obtain ⟨x, hx, hxy⟩ := List.mem_filterMap.1 hy
    split at hxy
    · next hp => exact hf.1 x y hp hxy (hc x hx)
    · injection hxy with hxy
      subst hxy
      exact hc x hx

theorem alone_apart {sys : Sys} {i : Nat} {w w' : Work} (hpk : pks ≠ []) (hpf : ∀ n ∈ pks, n ∈ sys.full)
    (hf : Fits sys pks i w) (hap : Apart pks w w') {a out : List TRow} (hc : ∀ x ∈ a, Cols sys.full x)
    (hno : ∀ x ∈ a, ¬ Concerns pks w' x) (ha : alone sys.full w a = some out) : ∀ y ∈ out, ¬ Concerns pks w' y := by
  intro y hy
  cases w with
  | flush items =>
    obtain ⟨S, rows, ns, hsq, hns, rfl, -⟩ := flushRows_some ha
    obtain ⟨hS, hk⟩ := norm_keys hpk hf hsq hns
    rcases (applySyncs_mem hS hpf hc hy).2 with h | ⟨s, hs, hu, he⟩
    · exact hno y h
    · obtain ⟨⟨n, hn, hsome⟩, it, hit, r, hr, h2⟩ := (hk s hs).2 hu
      exact hap y ⟨⟨n, hn, by rw [he n hn]; exact hsome⟩, it, hit, r, hr,
        fun n hn => (h2 n hn).trans (he n hn).symm⟩
  | insert rows =>
    simp only [alone, Option.some.injEq] at ha
    subst ha
    rcases List.mem_append.1 hy with hy | hy
    · exact hno y hy
    · exact hap y hy
  | modify p g =>
    simp only [alone, Option.some.injEq] at ha
    subst ha
    obtain ⟨x, hx, hxy⟩ := List.mem_filterMap.1 hy
    split at hxy
    · next hp => exact hap x y hp hxy (hno x hx)
    · injection hxy with hxy
      subst hxy
      exact hno x hx

/-- Files that a writer leaves alone contain no rows that concern it. -/
theorem pick_spec {sys : Sys} {i : Nat} {w : Work} (hpk : pks ≠ []) (hf : Fits sys pks i w) {fs : List DFile}
    (hs : ∀ f ∈ fs, SoundFile f) {keep : List Bool} (h : pick sys i w fs = some keep) :
    ∃ k : DFile → Bool, keep = fs.map k ∧ ∀ f ∈ fs, k f = false → ∀ x ∈ f.rows, ¬ Concerns pks w x := by
  cases w with
  | flush items =>
    obtain ⟨k, hkeep, hk⟩ := prune_keeps (pks := pks)
      (sn := { files := fs, hasMin := sys.hasMin fs, hasMax := sys.hasMax fs }) hs hpk hf h
    refine ⟨k, hkeep, ?_⟩
    rintro f hfm hkf x hx ⟨hnn, it, hit, r, hr, role, hrole, he⟩
    have := hk f hfm x hx hnn it hit r hr role hrole he
    rw [hkf] at this
    cases this
  | insert rows =>
    simp only [pick, Option.some.injEq] at h
    exact ⟨fun _ => false, h.symm, fun _ _ _ _ _ hx => hx⟩
  | modify p g =>
    simp only [pick, Option.some.injEq] at h
    refine ⟨sys.prune i, h.symm, ?_⟩
    intro f hfm hkf x hx hp
    have := hf.2 f (hs f hfm) hkf x hx
    simp only [Concerns] at hp
    rw [this] at hp
    cases hp

/-! ### the invariant -/

theorem rowsOf_append (a b : List TFile) : rowsOf (a ++ b) = rowsOf a ++ rowsOf b := by
  simp [rowsOf, contents, fileRows]

theorem mem_rowsOf {fs : List TFile} {x : TRow} : x ∈ rowsOf fs ↔ ∃ f ∈ fs, x ∈ f.file.rows := by
  simp only [rowsOf, contents, fileRows, List.mem_flatMap, List.mem_map]
  constructor
  · rintro ⟨_, ⟨f, hf, rfl⟩, hx⟩; exact ⟨f, hf, hx⟩
  · rintro ⟨f, hf, hx⟩; exact ⟨_, ⟨f, hf, rfl⟩, hx⟩

theorem rowsOf_perm {a b : List TFile} (h : a.Perm b) : (rowsOf a).Perm (rowsOf b) :=
  flatMap_perm _ (h.map _)

theorem rowsOf_zipIdx (l : List DFile) (n k : Nat) :
    rowsOf ((l.zipIdx k).map (fun c => { path := (n, c.2), file := c.1 })) = fileRows l := by
  induction l generalizing k with
  | nil => rfl
  | cons f fs ih =>
    have := ih (k + 1)
    simp only [rowsOf, contents, fileRows, List.zipIdx_cons, List.map_cons, List.flatMap_cons] at this ⊢
    rw [this]

theorem rowsOf_write (sys : Sys) (i : Nat) (rows : List TRow) :
    rowsOf (write sys i rows) = fileRows (sys.cut rows) := rowsOf_zipIdx _ _ _

theorem paths_zipIdx (l : List DFile) (n k : Nat) :
    (((l.zipIdx k).map (fun c => ({ path := (n, c.2), file := c.1 } : TFile))).map (·.path)).Nodup := by
  have : ((l.zipIdx k).map (fun c => ({ path := (n, c.2), file := c.1 } : TFile))).map (·.path) =
      (List.range' k l.length).map (fun m => (n, m)) := by
    rw [List.map_map, ← List.zipIdx_map_snd k l, List.map_map]
    rfl
  rw [this]
  exact (List.nodup_range' (step := 1)).map (fun a b h => by injection h)

theorem mem_write {sys : Sys} {i : Nat} {rows : List TRow} {f : TFile} (h : f ∈ write sys i rows) :
    f.path.1 = i + 1 ∧ f.file ∈ sys.cut rows := by
  obtain ⟨c, hc, rfl⟩ := List.mem_map.1 h
  exact ⟨rfl, (List.mem_zipIdx' hc).2 ▸ List.getElem_mem _⟩

/-- What holds for a writer that is about to commit, unless its commit will be rejected: the files it rewrites are still
there and no other file has rows that concern it. -/
def Current (pks : List String) (s : State) (w : Work) (touched : List TFile) : Prop :=
  ∃ others, s.files.Perm (touched ++ others) ∧ ∀ x ∈ rowsOf others, ¬ Concerns pks w x

/-- See `Current`. -/
structure ReadyOk (sys : Sys) (pks : List String) (s : State) (i v : Nat) (adds : List TFile)
    (removes : List (Nat × Nat)) : Prop where
  ver : v ≤ s.log.length
  ok : ∃ w touched out, sys.works[i]? = some w ∧ removes = touched.map (·.path) ∧
    alone sys.full w (rowsOf touched) = some out ∧ adds = write sys i out ∧ (∀ x ∈ out, Cols sys.full x) ∧
    (conflict s v removes = false → Current pks s w touched)

/-- The invariant. -/
structure Inv (sys : Sys) (pks : List String) (init : List DFile) (s : State) : Prop where
  nodup : (s.files.map (·.path)).Nodup
  fresh : ∀ f ∈ s.files, f.path.1 = 0 ∨ ∃ i, f.path.1 = i + 1 ∧ i ∈ s.log.map (·.1)
  good : ∀ f ∈ s.files, SoundFile f.file ∧ ∀ x ∈ f.file.rows, Cols sys.full x
  done : ∀ i, i ∈ s.log.map (·.1) ↔ s.stage i = .done
  once : (s.log.map (·.1)).Nodup
  ready : ∀ i v adds removes, s.stage i = .ready v adds removes → ReadyOk sys pks s i v adds removes
  serial : ∃ t, serially sys.full sys.works (s.log.map (·.1)) (fileRows init) = some t ∧ t.Perm (rowsOf s.files)

theorem serially_append (full : List String) (works : List Work) (is js : List Nat) (t : List TRow) :
    serially full works (is ++ js) t = (serially full works is t).bind (serially full works js) := by
  induction is generalizing t with
  | nil => rfl
  | cons i is ih =>
    simp only [List.cons_append, serially]
    cases works[i]? with
    | none => rfl
    | some w =>
      simp only [Option.bind_some]
      cases alone full w t with
      | none => rfl
      | some t' => simp only [Option.bind_some, ih]

theorem inv_initial {sys : Sys} {init : List DFile} (hs : Sound sys pks init) :
    Inv sys pks init (initial init) where
  nodup := paths_zipIdx init 0 0
  fresh := by
    intro f hf
    obtain ⟨c, -, rfl⟩ := List.mem_map.1 hf
    exact Or.inl rfl
  good := by
    intro f hf
    obtain ⟨c, hc, rfl⟩ := List.mem_map.1 hf
    exact hs.init c.1 ((List.mem_zipIdx' hc).2 ▸ List.getElem_mem _)
  done := by intro i; simp [initial]
  once := by simp [initial]
  ready := by intro i v adds removes h; cases h
  serial := ⟨fileRows init, rfl, by rw [initial, rowsOf_zipIdx]⟩

/-- A change of a stage that does not touch the table. -/
theorem inv_setStage {sys : Sys} {init : List DFile} {s : State} (h : Inv sys pks init s) (i : Nat) (st : Stage)
    (hnd : s.stage i ≠ .done) (hst : st ≠ .done)
    (hr : ∀ v adds removes, st = .ready v adds removes → ReadyOk sys pks s i v adds removes) :
    Inv sys pks init (setStage s i st) where
  nodup := h.nodup
  fresh := h.fresh
  good := h.good
  done := by
    intro j
    show j ∈ s.log.map (·.1) ↔ (if j = i then st else s.stage j) = .done
    by_cases hj : j = i
    · subst hj
      rw [if_pos rfl, h.done j]
      exact ⟨fun h' => absurd h' hnd, fun h' => absurd h' hst⟩
    · rw [if_neg hj]
      exact h.done j
  once := h.once
  ready := by
    intro j v adds removes hj
    have hj' : (if j = i then st else s.stage j) = .ready v adds removes := hj
    have : ReadyOk sys pks s j v adds removes := by
      by_cases hji : j = i
      · subst hji
        rw [if_pos rfl] at hj'
        exact hr v adds removes hj'
      · rw [if_neg hji] at hj'
        exact h.ready j v adds removes hj'
    exact ⟨this.ver, this.ok⟩
  serial := h.serial

theorem touched_filter (fs : List TFile) (k : DFile → Bool) :
    ((fs.zip ((contents fs).map k)).filter (·.2)).map (·.1) = fs.filter (fun f => k f.file) := by
  induction fs with
  | nil => rfl
  | cons f fs ih =>
    simp only [contents] at ih
    simp only [contents, List.map_cons, List.zip_cons_cons, List.filter_cons]
    cases k f.file <;> simp only [ih, Bool.false_eq_true, if_false, if_true, List.map_cons]

theorem filter_split (fs : List TFile) (k : TFile → Bool) :
    fs.Perm (fs.filter k ++ fs.filter (fun f => !k f)) := by
  induction fs with
  | nil => exact List.Perm.refl _
  | cons f fs ih =>
    simp only [List.filter_cons]
    cases k f with
    | true => simpa using ih
    | false =>
      simp only [Bool.false_eq_true, if_false, Bool.not_false, if_true]
      exact (ih.cons f).trans List.perm_middle.symm

theorem prepare_ready {sys : Sys} {init : List DFile} (hs : Sound sys pks init) {s : State} (h : Inv sys pks init s)
    {i : Nat} {w : Work} (hw : sys.works[i]? = some w) {v : Nat} {adds : List TFile} {removes : List (Nat × Nat)}
    (hp : prepare sys s i w = .ready v adds removes) : ReadyOk sys pks s i v adds removes := by
  simp only [prepare] at hp
  split at hp
  · cases hp
  · next keep hkeep =>
    have hsf : ∀ f ∈ contents s.files, SoundFile f := by
      intro f hf
      obtain ⟨g, hg, rfl⟩ := List.mem_map.1 hf
      exact (h.good g hg).1
    obtain ⟨k, rfl, hk⟩ := pick_spec hs.nonempty (hs.fits i w hw) hsf hkeep
    rw [touched_filter] at hp
    split at hp
    · cases hp
    · next out hout =>
      injection hp with h1 h2 h3
      subst h1 h2 h3
      rw [rewrite_eq_alone] at hout
      refine ⟨Nat.le_refl _, w, s.files.filter (fun f => k f.file), out, hw, rfl, hout, rfl, ?_, ?_⟩
      · refine alone_cols hs.nonempty hs.key (hs.fits i w hw) ?_ hout
        intro x hx
        obtain ⟨f, hf, hx⟩ := mem_rowsOf.1 hx
        exact (h.good f (List.mem_filter.1 hf).1).2 x hx
      · intro _
        refine ⟨_, filter_split s.files (fun f => k f.file), ?_⟩
        intro x hx
        obtain ⟨f, hf, hx⟩ := mem_rowsOf.1 hx
        obtain ⟨hf, hkf⟩ := List.mem_filter.1 hf
        exact hk f.file (List.mem_map.2 ⟨f, hf, rfl⟩) (by simpa using hkf) x hx

/-- Removing the files of a list by their names. -/
theorem filter_removed {files touched others : List TFile} (hp : files.Perm (touched ++ others))
    (hn : (files.map (·.path)).Nodup) :
    (files.filter (fun f => !(touched.map (·.path)).contains f.path)).Perm others := by
  have hn' : ((touched ++ others).map (·.path)).Nodup := ((hp.map _).nodup_iff).1 hn
  refine (hp.filter _).trans ?_
  rw [List.map_append, List.nodup_append] at hn'
  rw [List.filter_append]
  have h1 : touched.filter (fun f => !(touched.map (·.path)).contains f.path) = [] := by
    rw [List.filter_eq_nil_iff]
    intro f hf
    simp only [Bool.not_eq_true', Bool.not_eq_false, List.contains_iff_mem]
    exact List.mem_map.2 ⟨f, hf, rfl⟩
  have h2 : others.filter (fun f => !(touched.map (·.path)).contains f.path) = others := by
    rw [List.filter_eq_self]
    intro f hf
    simp only [Bool.not_eq_true', List.contains_eq_mem, decide_eq_false_iff_not]
    intro hm
    exact hn'.2.2 _ hm _ (List.mem_map.2 ⟨f, hf, rfl⟩) rfl
  rw [h1, h2]
  exact List.Perm.refl _

theorem conflict_snoc (s : State) (v : Nat) (removes : List (Nat × Nat)) (hv : v ≤ s.log.length)
    (files : List TFile) (e : Nat × List (Nat × Nat)) (stage : Nat → Stage) :
    conflict { files := files, log := s.log ++ [e], stage := stage } v removes =
      (conflict s v removes || e.2.any (fun p => removes.contains p)) := by
  simp only [conflict, List.drop_append_of_le_length hv, List.any_append, List.any_cons, List.any_nil, Bool.or_false]

theorem inv_commit {sys : Sys} {init : List DFile} (hs : Sound sys pks init) {s : State} (h : Inv sys pks init s)
    {j v : Nat} {adds : List TFile} {removes : List (Nat × Nat)} (hj : s.stage j = .ready v adds removes)
    (hc : conflict s v removes = false)
    (hq : ∀ i, i ≠ j → (s.stage i).open → ∀ w w', sys.works[j]? = some w → sys.works[i]? = some w' → Apart pks w w') :
    Inv sys pks init (setStage { s with files := s.files.filter (fun f => !removes.contains f.path) ++ adds
                                        log := s.log ++ [(j, removes)] } j .done) := by
  obtain ⟨hv, w, touched, out, hw, rfl, hout, rfl, hcols, hcur⟩ := h.ready j v adds removes hj
  obtain ⟨others, hperm, hoth⟩ := hcur hc
  have hjl : j ∉ s.log.map (·.1) := by
    rw [h.done j, hj]
    intro h'; cases h'
  have hfilter := filter_removed hperm h.nodup
  have hsub : ∀ f ∈ touched, f ∈ s.files := fun f hf => hperm.mem_iff.2 (List.mem_append.2 (Or.inl hf))
  have hosub : ∀ f ∈ others, f ∈ s.files := fun f hf => hperm.mem_iff.2 (List.mem_append.2 (Or.inr hf))
  have hrows : ∀ f ∈ write sys j out, ∀ x ∈ f.file.rows, x ∈ out := by
    intro f hf x hx
    have h1 : x ∈ rowsOf (write sys j out) := mem_rowsOf.2 ⟨f, hf, hx⟩
    rw [rowsOf_write] at h1
    exact (hs.cut out).1.mem_iff.1 h1
  refine ⟨?_, ?_, ?_, ?_, ?_, ?_, ?_⟩
  · show ((s.files.filter _ ++ write sys j out).map (·.path)).Nodup
    rw [List.map_append, List.nodup_append]
    refine ⟨h.nodup.sublist (List.filter_sublist.map _), paths_zipIdx _ _ _, ?_⟩
    intro a ha b hb he
    obtain ⟨f, hf, rfl⟩ := List.mem_map.1 ha
    obtain ⟨g, hg, rfl⟩ := List.mem_map.1 hb
    have hg' := (mem_write hg).1
    rcases h.fresh f (List.mem_filter.1 hf).1 with h0 | ⟨i, hi, hil⟩
    · rw [he, hg'] at h0
      cases h0
    · rw [he, hg'] at hi
      have : j = i := by injection hi
      exact hjl (this ▸ hil)
  · intro f hf
    rcases List.mem_append.1 hf with hf | hf
    · rcases h.fresh f (List.mem_filter.1 hf).1 with h0 | ⟨i, hi, hil⟩
      · exact Or.inl h0
      · refine Or.inr ⟨i, hi, ?_⟩
        show i ∈ (s.log ++ [(j, touched.map (·.path))]).map (·.1)
        rw [List.map_append]
        exact List.mem_append.2 (Or.inl hil)
    · refine Or.inr ⟨j, (mem_write hf).1, ?_⟩
      show j ∈ (s.log ++ [(j, touched.map (·.path))]).map (·.1)
      simp
  · intro f hf
    rcases List.mem_append.1 hf with hf | hf
    · exact h.good f (List.mem_filter.1 hf).1
    · exact ⟨(hs.cut out).2 _ (mem_write hf).2, fun x hx => hcols x (hrows f hf x hx)⟩
  · intro i
    show i ∈ (s.log ++ [(j, touched.map (·.path))]).map (·.1) ↔ (if i = j then Stage.done else s.stage i) = .done
    rw [List.map_append, List.mem_append, h.done i]
    by_cases hij : i = j
    · subst hij; simp
    · simp [hij]
  · show ((s.log ++ [(j, touched.map (·.path))]).map (·.1)).Nodup
    rw [List.map_append, List.nodup_append]
    refine ⟨h.once, by simp, ?_⟩
    intro a ha b hb he
    simp only [List.map_cons, List.map_nil, List.mem_singleton] at hb
    subst he hb
    exact hjl ha
  · intro i vi addsi remi hi
    have hij : i ≠ j := by
      intro hij
      subst hij
      have : (if i = i then Stage.done else s.stage i) = .ready vi addsi remi := hi
      rw [if_pos rfl] at this
      cases this
    have hi' : s.stage i = .ready vi addsi remi := by
      have : (if i = j then Stage.done else s.stage i) = .ready vi addsi remi := hi
      rwa [if_neg hij] at this
    obtain ⟨hvi, wi, ti, oi, hwi, hrem, houti, haddi, hcolsi, hcuri⟩ := h.ready i vi addsi remi hi'
    subst hrem
    refine ⟨?_, wi, ti, oi, hwi, rfl, houti, haddi, hcolsi, ?_⟩
    · show vi ≤ (s.log ++ [(j, touched.map (·.path))]).length
      rw [List.length_append]
      exact Nat.le_trans hvi (Nat.le_add_right _ _)
    · intro hcf
      have hcf' : (conflict s vi (ti.map (·.path)) ||
          (touched.map (·.path)).any (fun p => (ti.map (·.path)).contains p)) = false := by
        rw [← hcf]
        exact (conflict_snoc s vi _ hvi _ (j, touched.map (·.path)) _).symm
      rw [Bool.or_eq_false_iff] at hcf'
      obtain ⟨hcf1, hcf2⟩ := hcf'
      have hdis : ∀ p ∈ touched.map (·.path), p ∉ ti.map (·.path) := by
        intro p hp hpt
        rw [List.any_eq_false] at hcf2
        exact hcf2 p hp (by rw [List.contains_iff_mem]; exact hpt)
      obtain ⟨othi, hpi, hothi⟩ := hcuri hcf1
      have hap : Apart pks w wi := hq i hij (by rw [hi']; trivial) w wi hw hwi
      refine ⟨othi.filter (fun f => !(touched.map (·.path)).contains f.path) ++ write sys j out, ?_, ?_⟩
      · show (s.files.filter (fun f => !(touched.map (·.path)).contains f.path) ++ write sys j out).Perm _
        rw [← List.append_assoc]
        refine List.Perm.append_right _ ((hpi.filter _).trans ?_)
        rw [List.filter_append]
        have : ti.filter (fun f => !(touched.map (·.path)).contains f.path) = ti := by
          rw [List.filter_eq_self]
          intro f hf
          simp only [Bool.not_eq_true', List.contains_eq_mem, decide_eq_false_iff_not]
          exact fun hm => hdis _ hm (List.mem_map.2 ⟨f, hf, rfl⟩)
        rw [this]
      · intro x hx
        rw [rowsOf_append] at hx
        rcases List.mem_append.1 hx with hx | hx
        · obtain ⟨f, hf, hx⟩ := mem_rowsOf.1 hx
          exact hothi x (mem_rowsOf.2 ⟨f, (List.mem_filter.1 hf).1, hx⟩)
        · obtain ⟨f, hf, hx⟩ := mem_rowsOf.1 hx
          refine alone_apart hs.nonempty hs.key (hs.fits j w hw) hap ?_ ?_ hout x (hrows f hf x hx)
          · intro y hy
            obtain ⟨g, hg, hy⟩ := mem_rowsOf.1 hy
            exact (h.good g (hsub g hg)).2 y hy
          · intro y hy
            obtain ⟨g, hg, hy⟩ := mem_rowsOf.1 hy
            refine hothi y (mem_rowsOf.2 ⟨g, ?_, hy⟩)
            rcases List.mem_append.1 (hpi.mem_iff.1 (hsub g hg)) with hgt | hgo
            · exact absurd (List.mem_map.2 ⟨g, hgt, rfl⟩) (hdis _ (List.mem_map.2 ⟨g, hg, rfl⟩))
            · exact hgo
  · obtain ⟨t, ht, htp⟩ := h.serial
    have hocols : ∀ x ∈ rowsOf others, Cols sys.full x := by
      intro x hx
      obtain ⟨f, hf, hx⟩ := mem_rowsOf.1 hx
      exact (h.good f (hosub f hf)).2 x hx
    obtain ⟨o1, ho1, hp1⟩ := alone_rest hs.nonempty (hs.fits j w hw) hocols hoth hout
    have htp' : (rowsOf touched ++ rowsOf others).Perm t := by
      rw [← rowsOf_append]
      exact ((rowsOf_perm hperm).symm).trans htp.symm
    obtain ⟨o2, ho2, hp2⟩ := alone_perm htp' ho1
    refine ⟨o2, ?_, ?_⟩
    · show serially sys.full sys.works ((s.log ++ [(j, touched.map (·.path))]).map (·.1)) (fileRows init) = some o2
      rw [List.map_append, serially_append, ht]
      simp only [List.map_cons, List.map_nil, Option.bind_some, serially, hw, ho2]
    · show o2.Perm (rowsOf (s.files.filter _ ++ write sys j out))
      rw [rowsOf_append]
      refine (hp2.symm.trans hp1).trans ?_
      refine List.perm_append_comm.trans ?_
      refine List.Perm.append (rowsOf_perm hfilter).symm ?_
      rw [rowsOf_write]
      exact (hs.cut out).1.symm

theorem inv_step {sys : Sys} {init : List DFile} (hs : Sound sys pks init) {s : State} (h : Inv sys pks init s) (e : Ev)
    (hq : ∀ j, e = .run j → (s.stage j).open → ∀ i, i ≠ j → (s.stage i).open →
      ∀ w w', sys.works[j]? = some w → sys.works[i]? = some w' → Apart pks w w') : Inv sys pks init (step sys s e) := by
  cases e with
  | run i =>
    simp only [step]
    split
    · next w hw hst =>
      refine inv_setStage h i _ (by rw [hst]; intro h'; cases h') ?_ ?_
      · simp only [prepare]
        split
        · intro h'; cases h'
        · split <;> (intro h'; cases h')
      · intro v adds removes hp
        exact prepare_ready hs h hw hp
    · next w v adds removes hw hst =>
      simp only [commit]
      split
      · exact inv_setStage h i _ (by rw [hst]; intro h'; cases h') (by intro h'; cases h') (by intro _ _ _ h'; cases h')
      · next hc =>
        exact inv_commit hs h hst (by simpa using hc) (hq i rfl (by rw [hst]; trivial))
    · exact h
  | fail i =>
    simp only [step]
    split
    · next hst =>
      exact inv_setStage h i _ (by rw [hst]; intro h'; cases h') (by intro h'; cases h') (by intro _ _ _ h'; cases h')
    · next hst =>
      exact inv_setStage h i _ (by rw [hst]; intro h'; cases h') (by intro h'; cases h') (by intro _ _ _ h'; cases h')
    · exact h

theorem run_snoc (sys : Sys) (init : List DFile) (evs : List Ev) (e : Ev) :
    run sys init (evs ++ [e]) = step sys (run sys init evs) e := by
  simp [run]

theorem inv_run {sys : Sys} {init : List DFile} (hs : Sound sys pks init) (evs : List Ev)
    (hq : Quiet sys pks init evs) : Inv sys pks init (run sys init evs) := by
  induction evs using List.reverseRecOn with
  | nil => exact inv_initial hs
  | append_singleton evs e ih =>
    rw [run_snoc]
    refine inv_step hs (ih ?_) e ?_
    · intro pre j post he
      exact hq pre j (post ++ [e]) (by rw [he]; simp)
    · rintro j rfl hj
      exact hq evs j [] rfl hj

/-! ### the properties -/

/-- **C135** (partial: only if no writer makes rows that concern another writer at work).  Whatever the order of the steps,
the rows of the table are those of carrying out the writers that have committed one after the other, each with the
table for itself; each takes effect at the moment of its commit, and those that have failed have no effect. -/
theorem C135_serial_partial {sys : Sys} {init : List DFile} (hs : Sound sys pks init) (evs : List Ev)
    (hq : Quiet sys pks init evs) :
    ∃ order : List Nat, order.Nodup ∧ (∀ i, i ∈ order ↔ (run sys init evs).stage i = .done) ∧
      (∀ pre post, evs = pre ++ post → ∃ rest, order = (run sys init pre).log.map (·.1) ++ rest ∧
        ∀ i, i ∈ (run sys init pre).log.map (·.1) ↔ (run sys init pre).stage i = .done) ∧
      ∃ t, serially sys.full sys.works order (fileRows init) = some t ∧ t.Perm (rowsOf (run sys init evs).files) := by
  have hinv := inv_run hs evs hq
  refine ⟨(run sys init evs).log.map (·.1), hinv.once, hinv.done, ?_, hinv.serial⟩
  rintro pre post rfl
  have hpre : Inv sys pks init (run sys init pre) := by
    refine inv_run hs pre ?_
    intro p j q he
    exact hq p j (q ++ post) (by rw [he]; simp)
  have hlog : ∀ (es : List Ev) (s : State), ∃ rest, (es.foldl (step sys) s).log = s.log ++ rest := by
    intro es
    induction es with
    | nil => intro s; exact ⟨[], by simp⟩
    | cons e es ih =>
      intro s
      obtain ⟨rest, hr⟩ := ih (step sys s e)
      have : ∃ r, (step sys s e).log = s.log ++ r := by
        cases e with
        | run i =>
          simp only [step]
          split
          · exact ⟨[], by simp [setStage]⟩
          · simp only [commit]
            split
            · exact ⟨[], by simp [setStage]⟩
            · exact ⟨_, rfl⟩
          · exact ⟨[], by simp⟩
        | fail i =>
          simp only [step]
          split <;> exact ⟨[], by simp [setStage]⟩
      obtain ⟨r, hr'⟩ := this
      exact ⟨r ++ rest, by rw [List.foldl_cons, hr, hr', List.append_assoc]⟩
  obtain ⟨rest, hr⟩ := hlog post (run sys init pre)
  refine ⟨rest.map (·.1), ?_, hpre.done⟩
  have : run sys init (pre ++ post) = post.foldl (step sys) (run sys init pre) := by simp [run]
  rw [this, hr, List.map_append]

/-- **C135** for servers that replicate different keys: if no server writes a key that another one changes, the condition
always holds. -/
theorem C135_disjoint {sys : Sys} {init : List DFile} (hs : Sound sys pks init) (evs : List Ev)
    (hfl : ∀ w ∈ sys.works, ∃ items, w = .flush items)
    (hd : ∀ (i j : Nat) (items items' : List SItem), i ≠ j → sys.works[i]? = some (Work.flush items) →
      sys.works[j]? = some (Work.flush items') →
      ∀ y, Writes pks items y → ¬ Affects pks items' y) :
    ∃ order : List Nat, order.Nodup ∧ (∀ i, i ∈ order ↔ (run sys init evs).stage i = .done) ∧
      ∃ t, serially sys.full sys.works order (fileRows init) = some t ∧ t.Perm (rowsOf (run sys init evs).files) := by
  have hq : Quiet sys pks init evs := by
    intro pre j post _ _ i hij _ w w' hw hw'
    obtain ⟨items, rfl⟩ := hfl w (List.mem_of_getElem? hw)
    obtain ⟨items', rfl⟩ := hfl w' (List.mem_of_getElem? hw')
    exact hd j i items items' (fun h => hij h.symm) hw hw'
  obtain ⟨order, h1, h2, -, h3⟩ := C135_serial_partial hs evs hq
  exact ⟨order, h1, h2, h3⟩

/-- The effect of a commit on the table as it is at that moment. -/
theorem commit_effect {sys : Sys} {init : List DFile} (hs : Sound sys pks init) (evs : List Ev) (j : Nat)
    (hq : Quiet sys pks init (evs ++ [.run j])) (w : Work) (hw : sys.works[j]? = some w)
    (h0 : (run sys init evs).stage j ≠ .done) (h1 : (run sys init (evs ++ [.run j])).stage j = .done) :
    ∃ out, alone sys.full w (rowsOf (run sys init evs).files) = some out ∧
      out.Perm (rowsOf (run sys init (evs ++ [.run j])).files) := by
  have hq0 : Quiet sys pks init evs := by
    intro p k q he
    exact hq p k (q ++ [.run j]) (by rw [he]; simp)
  have hi0 := inv_run hs evs hq0
  have hi1 := inv_run hs _ hq
  obtain ⟨t, ht, htp⟩ := hi0.serial
  obtain ⟨o, ho, hop⟩ := hi1.serial
  have hlog : (run sys init (evs ++ [.run j])).log.map (·.1) = (run sys init evs).log.map (·.1) ++ [j] := by
    rw [run_snoc] at h1 ⊢
    simp only [step] at h1 ⊢
    split at h1
    · next hst =>
      exfalso
      simp only [setStage, if_pos, prepare] at h1
      split at h1
      · cases h1
      · split at h1 <;> cases h1
    · simp only [commit] at h1 ⊢
      split at h1
      · simp only [setStage, if_pos] at h1
        cases h1
      · next hc => rw [if_neg hc]; simp [setStage]
    · exact absurd h1 h0
  rw [hlog, serially_append, ht] at ho
  simp only [Option.bind_some, serially, hw] at ho
  cases ha : alone sys.full w t with
  | none => rw [ha] at ho; cases ho
  | some o' =>
    rw [ha] at ho
    simp only [Option.bind_some, Option.some.injEq] at ho
    subst ho
    obtain ⟨out, h2, h3⟩ := alone_perm htp ha
    exact ⟨out, h2, h3.symm.trans hop⟩

/-- **C135** (partial: same condition; key of one column, changes with all columns as in C16).  The commit of a flush
replays its changes on the table as it is at the moment of the commit, not as it was when the flush began. -/
theorem C135_replay_partial {sys : Sys} {init : List DFile} (n : String) (hs : Sound sys [n] init) (evs : List Ev) (j : Nat)
    (hq : Quiet sys [n] init (evs ++ [.run j])) (items outs : List SItem)
    (hw : sys.works[j]? = some (.flush outs)) (hne : items ≠ []) (hsq : SquashedItems items outs)
    (hok : ∀ it ∈ items, SchemaOk [n] it.1 ∧ ∀ c, Desc.mk .changed c ∉ it.1)
    (hall : ∀ it ∈ items, ∀ c, Desc.mk .value c ∈ it.1 ↔ c ∈ sys.full ∧ c ≠ n)
    (h0 : (run sys init evs).stage j ≠ .done) (h1 : (run sys init (evs ++ [.run j])).stage j = .done)
    (hb : Keyed [n] sys.full (rowsOf (run sys init evs).files))
    (hv : ValidSeq sys.full (tableOf [n] (rowsOf (run sys init evs).files)) (allChanges [n] items)) :
    Keyed [n] sys.full (rowsOf (run sys init (evs ++ [.run j])).files) ∧
    tableOf [n] (rowsOf (run sys init (evs ++ [.run j])).files) =
      replay sys.full (tableOf [n] (rowsOf (run sys init evs).files)) (allChanges [n] items) := by
  obtain ⟨out, ho, hp⟩ := commit_effect hs evs j hq _ hw h0 h1
  obtain ⟨out', ho', hk, ht⟩ := C16_full_rows n (hs.key n (by simp)) _ hb items outs hne hsq hok hall hv
  simp only [alone] at ho
  rw [ho] at ho'
  injection ho' with ho'
  subst ho'
  refine ⟨⟨((hp.map _).nodup_iff).1 hk.nodup, fun r hr => hk.nonnull r (hp.mem_iff.2 hr),
    fun r hr => hk.cols r (hp.mem_iff.2 hr)⟩, ?_⟩
  rw [← tableOf_perm hp hk.nodup, ht]

/-- A writer has loaded a version that exists. -/
theorem ready_ver (sys : Sys) (init : List DFile) (evs : List Ev) :
    ∀ (i v : Nat) (adds : List TFile) (rem : List (Nat × Nat)),
      (run sys init evs).stage i = .ready v adds rem → v ≤ (run sys init evs).log.length := by
  induction evs using List.reverseRecOn with
  | nil => intro i v adds rem h; cases h
  | append_singleton evs e ih =>
    intro i v adds rem
    rw [run_snoc]
    have hset : ∀ (s' : State) (k : Nat) (st : Stage), s'.stage = (run sys init evs).stage →
        (run sys init evs).log.length ≤ s'.log.length →
        (∀ v adds rem, st = .ready v adds rem → v ≤ s'.log.length) →
        (setStage s' k st).stage i = .ready v adds rem → v ≤ (setStage s' k st).log.length := by
      intro s' k st h1 h2 h3 h4
      by_cases hk : i = k
      · simp only [setStage, hk, if_true] at h4
        exact h3 v adds rem h4
      · simp only [setStage, hk, if_false, h1] at h4
        exact Nat.le_trans (ih i v adds rem h4) h2
    cases e with
    | run k =>
      simp only [step]
      split
      · refine hset _ _ _ rfl (Nat.le_refl _) ?_
        intro v adds rem hp
        simp only [prepare] at hp
        split at hp
        · cases hp
        · split at hp
          · cases hp
          · injection hp with hp; exact Nat.le_of_eq hp.symm
      · simp only [commit]
        split
        · exact hset _ _ _ rfl (Nat.le_refl _) (by intro _ _ _ h; cases h)
        · exact hset _ _ _ rfl (by simp) (by intro _ _ _ h; cases h)
      · exact ih i v adds rem
    | fail k =>
      simp only [step]
      split
      · exact hset _ _ _ rfl (Nat.le_refl _) (by intro _ _ _ h; cases h)
      · exact hset _ _ _ rfl (Nat.le_refl _) (by intro _ _ _ h; cases h)
      · exact ih i v adds rem

/-- **C135**: of two writers that are at work at the same time and rewrite a common file, at most one commits; the other
fails. -/
theorem C135_conflict (sys : Sys) (init : List DFile) (evs post : List Ev) (i j v v' : Nat) (hij : i ≠ j)
    (adds adds' : List TFile) (rem rem' : List (Nat × Nat)) (p : Nat × Nat)
    (hi : (run sys init evs).stage i = .ready v adds rem) (hj : (run sys init evs).stage j = .ready v' adds' rem')
    (hp : p ∈ rem) (hp' : p ∈ rem') (hdone : (run sys init (evs ++ [.run j])).stage j = .done) :
    (run sys init (evs ++ .run j :: post)).stage i ≠ .done := by
  have hv := ready_ver sys init evs i v adds rem hi
  have key : ∀ (es : List Ev) (s : State),
      (s.stage i = .ready v adds rem ∧ conflict s v rem = true) ∨ s.stage i = .failed →
      (es.foldl (step sys) s).stage i ≠ .done := by
    intro es
    induction es with
    | nil =>
      rintro s (⟨h, -⟩ | h) h' <;> (simp only [List.foldl_nil, h] at h'; cases h')
    | cons e es ih =>
      intro s hs
      rw [List.foldl_cons]
      apply ih
      have hset : ∀ (k : Nat) (st : Stage), k ≠ i →
          ((setStage s k st).stage i = .ready v adds rem ∧ conflict (setStage s k st) v rem = true) ∨
          (setStage s k st).stage i = .failed := by
        intro k st hk
        have hst : (setStage s k st).stage i = s.stage i := by
          simp [setStage, Ne.symm hk]
        rw [hst]
        exact hs
      cases e with
      | run k =>
        simp only [step]
        split
        · next w hw hst =>
          refine hset k _ ?_
          rintro rfl
          rcases hs with ⟨h, -⟩ | h <;> (rw [h] at hst; cases hst)
        · next w vk ak rk hw hst =>
          by_cases hk : k = i
          · subst hk
            rcases hs with ⟨h, hc⟩ | h
            · rw [h] at hst
              injection hst with e1 e2 e3
              subst e1 e2 e3
              simp only [commit, hc, if_true]
              right
              simp [setStage]
            · rw [h] at hst; cases hst
          · simp only [commit]
            split
            · exact hset k _ hk
            · have hst' : ∀ s' : State, (setStage s' k .done).stage i = s'.stage i := by
                intro s'; simp [setStage, Ne.symm hk]
              rw [hst']
              rcases hs with ⟨h, hc⟩ | h
              · left
                refine ⟨h, ?_⟩
                simp only [conflict, setStage] at hc ⊢
                rw [List.any_eq_true] at hc ⊢
                obtain ⟨x, hx, hx'⟩ := hc
                refine ⟨x, ?_, hx'⟩
                rw [List.drop_append]
                exact List.mem_append.2 (Or.inl hx)
              · exact Or.inr h
        · exact hs
      | fail k =>
        simp only [step]
        by_cases hk : k = i
        · subst hk
          rcases hs with ⟨h, -⟩ | h
          · rw [h]; right; simp [setStage]
          · rw [h]; right; exact h
        · split
          · exact hset k _ hk
          · exact hset k _ hk
          · exact hs
  have hrun : run sys init (evs ++ .run j :: post) = post.foldl (step sys) (run sys init (evs ++ [.run j])) := by
    simp [run]
  rw [hrun]
  apply key
  left
  rw [run_snoc] at hdone ⊢
  simp only [step, hj] at hdone ⊢
  cases hw : sys.works[j]? with
  | none =>
    rw [hw] at hdone
    simp only [hj] at hdone
    cases hdone
  | some w =>
    rw [hw] at hdone
    simp only [commit] at hdone ⊢
    split
    · next hc =>
      rw [if_pos hc] at hdone
      simp [setStage] at hdone
    · refine ⟨by simp [setStage, hij, hi], ?_⟩
      simp only [conflict, setStage, List.drop_append_of_le_length hv, List.any_append, List.any_cons, List.any_nil,
        Bool.or_false, Bool.or_eq_true]
      right
      rw [List.any_eq_true]
      exact ⟨p, hp', by rw [List.contains_iff_mem]; exact hp⟩

/-- **C135**, violated: the same changes sent to two servers, e.g. after a change-over, are both applied if no file of the
table may contain one of their keys.  The new rows are then there twice. -/
theorem C135_violated_twice (sys : Sys) (init : List DFile) (items : List SItem) (out : List TRow)
    (hcut : ∀ rows, (fileRows (sys.cut rows)).Perm rows)
    (hw : sys.works = [.flush items, .flush items])
    (hpick : prunePartitions ⟨init, sys.hasMin init, sys.hasMax init⟩ items = some (init.map (fun _ => false)))
    (hout : flushRows sys.full items [] = some out) :
    (run sys init [.run 0, .run 1, .run 0, .run 1]).stage 0 = .done ∧
    (run sys init [.run 0, .run 1, .run 0, .run 1]).stage 1 = .done ∧
    (rowsOf (run sys init [.run 0, .run 1, .run 0, .run 1]).files).Perm (fileRows init ++ out ++ out) := by
  have hcont : contents (initial init).files = init := by
    simp only [contents, initial, List.map_map]
    exact List.zipIdx_map_fst 0 init
  have hprep : ∀ (s : State) (i : Nat), s.files = (initial init).files →
      prepare sys s i (.flush items) = .ready s.log.length (write sys i out) [] := by
    intro s i hf
    have hk : pick sys i (.flush items) (contents s.files) = some ((contents s.files).map (fun _ => false)) := by
      rw [hf, hcont]; exact hpick
    have ht : ((s.files.zip ((contents s.files).map (fun _ => false))).filter (·.2)).map (·.1) = [] := by
      rw [touched_filter]
      simp
    simp only [prepare, hk, ht]
    have : rewrite sys.full (.flush items) (rowsOf []) = some out := hout
    rw [this]
    rfl
  have h0 : sys.works[0]? = some (.flush items) := by rw [hw]; rfl
  have h1 : sys.works[1]? = some (.flush items) := by rw [hw]; rfl
  have hs1 : step sys (initial init) (.run 0) = setStage (initial init) 0 (.ready 0 (write sys 0 out) []) := by
    have := hprep (initial init) 0 rfl
    simp only [step, h0, initial] at this ⊢
    rw [this]
    rfl
  have hs2 : step sys (setStage (initial init) 0 (.ready 0 (write sys 0 out) [])) (.run 1) =
      setStage (setStage (initial init) 0 (.ready 0 (write sys 0 out) [])) 1 (.ready 0 (write sys 1 out) []) := by
    have := hprep (setStage (initial init) 0 (.ready 0 (write sys 0 out) [])) 1 rfl
    have hst : (setStage (initial init) 0 (.ready 0 (write sys 0 out) [])).stage 1 = .start := rfl
    simp only [step, h1, hst, this]
    rfl
  have hrun : run sys init [.run 0, .run 1, .run 0, .run 1] =
      step sys (step sys (setStage (setStage (initial init) 0 (.ready 0 (write sys 0 out) [])) 1
        (.ready 0 (write sys 1 out) [])) (.run 0)) (.run 1) := by
    simp only [run, List.foldl_cons, List.foldl_nil, hs1, hs2]
  have hfl : ∀ fs : List TFile, fs.filter (fun f => !([] : List (Nat × Nat)).contains f.path) = fs := by
    intro fs; exact List.filter_eq_self.2 (fun _ _ => rfl)
  rw [hrun]
  simp only [step, h0, h1, setStage, initial, commit, conflict, List.drop_zero, List.drop_nil, List.any_nil,
    Nat.one_ne_zero, Nat.zero_ne_one, if_true, if_false, Bool.false_eq_true, hfl, List.nil_append, List.any_cons,
    Bool.or_false, true_and]
  rw [rowsOf_append, rowsOf_append, rowsOf_write, rowsOf_write, rowsOf_zipIdx]
  exact ((hcut out).append_left _).append (hcut out)

/-! ### concrete cases -/

namespace ShDemo
open SqDemo

/-- Two files with statistics about the key. -/
def init : List DFile :=
  [{ rows := [trow [("id", i 1), ("v", i 10)], trow [("id", i 2), ("v", i 20)]]
     min := trow [("id", i 1)], max := trow [("id", i 2)], records := some 2 },
   { rows := [trow [("id", i 50), ("v", i 10)]]
     min := trow [("id", i 40)], max := trow [("id", i 60)], records := some 1 }]

/-- New files have no statistics here. -/
def cut (rows : List TRow) : List DFile :=
  [{ rows := rows, min := fun _ => none, max := fun _ => none, records := none }]

/-- Everything else. -/
def sys (works : List Work) : Sys where
  works := works
  full := ["id", "v"]
  hasMin := fun _ _ => true
  hasMax := fun _ _ => true
  prune := fun _ _ => true
  cut := cut

/-- A change of the key 2 and the insertion of the key 80. -/
def two : List Work :=
  [.flush [(S3, [r3 (i 2) (i 2) (i 21)])], .flush [(S3, [r3 none (i 80) (i 1)])]]

/-- The insertion of the key 80 by two servers. -/
def same : List Work :=
  [.flush [(S3, [r3 none (i 80) (i 1)])], .flush [(S3, [r3 none (i 80) (i 1)])]]

/-- The number of rows with a key. -/
def count (n : Int) (rows : List TRow) : Nat := (rows.filter (fun r => decide (r "id" = i n))).length

/-- Whether a writer has committed. -/
def isDone : Stage → Bool
  | .done => true
  | _ => false

theorem sound (works : List Work) (h : ∀ w ∈ works, ∃ r, w = .flush [(S3, [r])]) : Sound (sys works) ["id"] init where
  nonempty := by simp
  key := by simp [sys]
  cut := by
    intro rows
    refine ⟨by simp [sys, cut, fileRows], ?_⟩
    intro f hf r hr c v hv
    simp only [sys, cut, List.mem_singleton] at hf
    subst hf
    exact ⟨fun m hm => (by cases hm), fun m hm => (by cases hm)⟩
  init := by
    have hcols : ∀ (a b : Cell) (c : String), c ∉ ["id", "v"] → trow [("id", a), ("v", b)] c = none := by
      intro a b c hc
      simp only [List.mem_cons, List.not_mem_nil, or_false, not_or] at hc
      simp [trow, List.lookup, beq_eq_false_iff_ne.2 hc.1, beq_eq_false_iff_ne.2 hc.2]
    intro f hf
    simp only [init, List.mem_cons, List.not_mem_nil, or_false] at hf
    rcases hf with rfl | rfl
    · constructor
      · intro r hr c v hv
        by_cases hc : c = "id"
        · subst hc
          simp only [List.mem_cons, List.not_mem_nil, or_false] at hr
          rcases hr with rfl | rfl <;>
            (simp [trow, i] at hv; subst hv; constructor <;> intro m hm <;> simp [trow, i] at hm <;> subst hm <;> decide)
        · have h1 : ∀ x, trow [("id", x)] c = none := by intro x; simp [trow, List.lookup, beq_eq_false_iff_ne.2 hc]
          exact ⟨fun m hm => (by cases (h1 _).symm.trans hm), fun m hm => (by cases (h1 _).symm.trans hm)⟩
      · intro x hx
        simp only [List.mem_cons, List.not_mem_nil, or_false] at hx
        rcases hx with rfl | rfl <;> exact hcols _ _
    · constructor
      · intro r hr c v hv
        by_cases hc : c = "id"
        · subst hc
          simp only [List.mem_cons, List.not_mem_nil, or_false] at hr
          subst hr
          simp [trow, i] at hv; subst hv; constructor <;> intro m hm <;> simp [trow, i] at hm <;> subst hm <;> decide
        · have h1 : ∀ x, trow [("id", x)] c = none := by intro x; simp [trow, List.lookup, beq_eq_false_iff_ne.2 hc]
          exact ⟨fun m hm => (by cases (h1 _).symm.trans hm), fun m hm => (by cases (h1 _).symm.trans hm)⟩
      · intro x hx
        simp only [List.mem_cons, List.not_mem_nil, or_false] at hx
        subst hx; exact hcols _ _
  fits := by
    intro k w hw
    obtain ⟨r, rfl⟩ := h w (List.mem_of_getElem? hw)
    intro it hit
    simp only [List.mem_singleton] at hit
    subst hit
    exact S3_ok

/-- Interleaved, the keys 2 and 80 do not disturb each other. -/
theorem disjoint (k j : Nat) (items items' : List SItem) (hkj : k ≠ j) (hk : two[k]? = some (Work.flush items))
    (hj : two[j]? = some (Work.flush items')) (y : TRow) (hw : Writes ["id"] items y) : ¬ Affects ["id"] items' y := by
  rintro ⟨hnn, it', hit', r', hr', role, hrole, he'⟩
  obtain ⟨-, it, hit, r, hr, he⟩ := hw
  have h1 := he "id" (by simp)
  have h2 := he' "id" (by simp)
  have hnn := hnn "id" (by simp)
  match k, j, hkj with
  | 0, 1, _ =>
    simp only [two, List.getElem?_cons_zero, List.getElem?_cons_succ, Option.some.injEq, Work.flush.injEq] at hk hj
    subst hk hj
    simp only [List.mem_singleton] at hit hit'
    subst hit hit'
    simp only [List.mem_singleton] at hr hr'
    subst hr hr'
    rw [← h1] at h2
    rcases hrole with rfl | rfl <;> exact absurd h2 (by decide)
  | 1, 0, _ =>
    simp only [two, List.getElem?_cons_zero, List.getElem?_cons_succ, Option.some.injEq, Work.flush.injEq] at hk hj
    subst hk hj
    simp only [List.mem_singleton] at hit hit'
    subst hit hit'
    simp only [List.mem_singleton] at hr hr'
    subst hr hr'
    rw [← h1] at h2
    rcases hrole with rfl | rfl <;> exact absurd h2 (by decide)
  | 0, 0, h => exact absurd rfl h
  | 1, 1, h => exact absurd rfl h
  | n + 2, _, _ => simp [two] at hk
  | 0, n + 2, _ => simp [two] at hj
  | 1, n + 2, _ => simp [two] at hj

end ShDemo

open ShDemo in
/-- A case for `C135_disjoint` (and so for `C135_serial_partial`): both commit, the value of the key 2 is changed and the
key 80 is there. -/
example :
    (isDone ((run (sys two) init [.run 0, .run 1, .run 1, .run 0]).stage 0) = true ∧
      isDone ((run (sys two) init [.run 0, .run 1, .run 1, .run 0]).stage 1) = true ∧
      (rowsOf (run (sys two) init [.run 0, .run 1, .run 1, .run 0]).files).map (fun r => (r "id", r "v")) =
        [(SqDemo.i 50, SqDemo.i 10), (SqDemo.i 80, SqDemo.i 1), (SqDemo.i 1, SqDemo.i 10), (SqDemo.i 2, SqDemo.i 21)]) ∧
    ∃ order : List Nat, order.Nodup ∧
      (∀ k, k ∈ order ↔ (run (sys two) init [.run 0, .run 1, .run 1, .run 0]).stage k = .done) ∧
      ∃ t, serially (sys two).full (sys two).works order (fileRows init) = some t ∧
        t.Perm (rowsOf (run (sys two) init [.run 0, .run 1, .run 1, .run 0]).files) :=
  ⟨by decide +kernel, C135_disjoint (sound two (by simp [two])) _ (by simp [sys, two]) disjoint⟩

open ShDemo SqDemo in
/-- Two flushes that change rows of one file: the second fails. -/
example :
    isDone ((run (sys [.flush [(S3, [r3 (i 2) (i 2) (i 21)])], .flush [(S3, [r3 (i 1) (i 1) (i 11)])]]) init
      [.run 0, .run 1, .run 1, .run 0]).stage 0) = false ∧
    isDone ((run (sys [.flush [(S3, [r3 (i 2) (i 2) (i 21)])], .flush [(S3, [r3 (i 1) (i 1) (i 11)])]]) init
      [.run 0, .run 1, .run 1, .run 0]).stage 1) = true := by decide +kernel

open ShDemo SqDemo in
/-- **C135**, violated in a concrete case: both servers commit and there are two rows with the key 80.  In any order one
after the other there is one. -/
theorem C135_violated_example :
    (isDone ((run (sys same) init [.run 0, .run 1, .run 0, .run 1]).stage 0) = true ∧
      isDone ((run (sys same) init [.run 0, .run 1, .run 0, .run 1]).stage 1) = true ∧
      count 80 (rowsOf (run (sys same) init [.run 0, .run 1, .run 0, .run 1]).files) = 2) ∧
    (serially (sys same).full same [0, 1] (fileRows init)).map (count 80) = some 1 ∧
    (serially (sys same).full same [1, 0] (fileRows init)).map (count 80) = some 1 := by
  decide +kernel

open ShDemo SqDemo in
/-- A case for the hypotheses of `C135_violated_twice`. -/
example : prunePartitions ⟨init, (sys same).hasMin init, (sys same).hasMax init⟩ [(S3, [r3 none (i 80) (i 1)])] =
      some (init.map (fun _ => false)) ∧
    (flushRows (sys same).full [(S3, [r3 none (i 80) (i 1)])] []).isSome = true := by
  decide +kernel

end Seafowl.Shared
