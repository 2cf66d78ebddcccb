/-
C45: time travel refers to the right table version.
-/
import Verif.Sql.TimeTravel

set_option linter.unusedSimpArgs false

namespace Seafowl.TimeTravel

/-! ### Specification -/

/-- `n` is the newest version created at or before `t`. -/
def NewestAt (ts : Nat → Int) (lo latest : Nat) (t : Int) (n : Nat) : Prop :=
  lo ≤ n ∧ n ≤ latest ∧ ts n ≤ t ∧ ∀ m, lo ≤ m → m ≤ latest → ts m ≤ t → m ≤ n

/-! ### The version search -/

theorem search_spec (ts : Nat → Int) (t : Int) (L H : Nat)
    (hmono : ∀ a b, L ≤ a → a < b → b ≤ H → ts a < ts b) :
    ∀ (lo hi v : Nat), L ≤ lo → hi ≤ H + 1 → lo ≤ hi →
      (∀ m, L ≤ m → m < lo → ts m < t) → (∀ m, hi ≤ m → m ≤ H → t < ts m) →
      (lo = hi → v = lo - 1) →
      (∃ m, L ≤ m ∧ m ≤ H ∧ ts m ≤ t) →
      NewestAt ts L H t (search ts t lo hi v) := by
  intro lo hi v
  induction lo, hi, v using search.induct ts t with
  | case1 lo hi v hlt pivot heq =>
    intro hL hH _ _ _ _ _
    unfold search
    rw [if_pos hlt]
    simp only
    have hp : pivot = (lo + (hi - 1)) / 2 := rfl
    have heq' : ts ((lo + (hi - 1)) / 2) = t := heq
    rw [if_pos heq]
    refine ⟨by omega, by omega, by rw [heq']; exact Int.le_refl _, ?_⟩
    intro m hm1 hm2 hm3
    refine Nat.le_of_not_lt fun hc => ?_
    have := hmono ((lo + (hi - 1)) / 2) m (by omega) hc hm2
    omega
  | case2 lo hi v hlt pivot hne hlt2 ih =>
    intro hL hH hle h1 h2 _ hex
    unfold search
    rw [if_pos hlt]
    simp only
    have hp : pivot = (lo + (hi - 1)) / 2 := rfl
    rw [if_neg hne, if_pos hlt2]
    refine ih (by omega) hH (by omega) ?_ h2 (by omega) hex
    intro m hm1 hm2
    by_cases hmp : m = pivot
    · rw [hmp]; exact hlt2
    · have := hmono m pivot hm1 (by omega) (by omega)
      omega
  | case3 lo hi v hlt pivot hne hge ih =>
    intro hL hH hle h1 h2 _ hex
    unfold search
    rw [if_pos hlt]
    simp only
    have hp : pivot = (lo + (hi - 1)) / 2 := rfl
    rw [if_neg hne, if_neg hge]
    refine ih hL (by omega) (by omega) h1 ?_ (by omega) hex
    intro m hm1 hm2
    by_cases hmp : m = pivot
    · rw [hmp]; omega
    · have := hmono pivot m (by omega) (by omega) hm2
      omega
  | case4 lo hi v hge =>
    intro hL hH hle h1 h2 hv hex
    unfold search
    rw [if_neg hge]
    have hlh : lo = hi := by omega
    have hv' := hv hlh
    obtain ⟨m, hm1, hm2, hm3⟩ := hex
    have hmlo : m < lo := by
      refine Nat.lt_of_not_le fun hc => ?_
      have := h2 m (by omega) hm2
      omega
    have hlast := h1 (lo - 1) (by omega) (by omega)
    refine ⟨by omega, by omega, by rw [hv']; omega, ?_⟩
    intro k hk1 hk2 hk3
    rw [hv']
    refine Nat.le_of_not_lt fun hc => ?_
    have := h2 k (by omega) hk2
    omega

/-- **C45 (version).** With strictly increasing commit times, a timestamp not before the first
commit selects the newest version created at or before it.  Partial: an earlier timestamp selects
the first version instead of failing (`C45_violated_before_creation`). -/
theorem C45_newest_partial (ts : Nat → Int) (lo latest : Nat) (t : Int)
    (hmono : ∀ a b, lo ≤ a → a < b → b ≤ latest → ts a < ts b)
    (hle : lo ≤ latest) (ht : ts lo ≤ t) :
    NewestAt ts lo latest t (loadVersion ts lo latest t) := by
  have h := search_spec ts t lo latest hmono lo (latest + 1) lo (Nat.le_refl _) (Nat.le_refl _)
    (by omega) (fun m h1 h2 => by omega) (fun m h1 h2 => by omega) (fun h => by omega)
    ⟨lo, Nat.le_refl _, hle, ht⟩
  unfold loadVersion
  rw [Nat.max_eq_right h.1]
  exact h

/-- **C45 violated (before the first version).** A timestamp before the table existed reads the
first version, although no version was created at or before it. -/
theorem C45_violated_before_creation :
    loadVersion (fun n => 100 * (n + 1)) 0 3 50 = 0 ∧
    ¬ ∃ n, NewestAt (fun n => 100 * (n + 1)) 0 3 50 n := by
  refine ⟨by decide +kernel, ?_⟩
  rintro ⟨n, -, -, h, -⟩
  simp only at h
  omega

/-- **C45 violated (before the first version), always.** For every history with increasing commit times, every
timestamp before the first commit reads the first version, although no version was created at or before it. -/
theorem C45_before_creation (ts : Nat → Int) (lo latest : Nat) (t : Int)
    (hmono : ∀ a b, lo ≤ a → a < b → b ≤ latest → ts a < ts b)
    (ht : t < ts lo) :
    loadVersion ts lo latest t = lo ∧ ∀ n, ¬ NewestAt ts lo latest t n := by
  have hall : ∀ m, lo ≤ m → m ≤ latest → t < ts m := by
    intro m h1 h2
    by_cases e : m = lo
    · rw [e]; exact ht
    · have := hmono lo m (Nat.le_refl _) (by omega) h2
      omega
  refine ⟨?_, fun n hn => ?_⟩
  · have hs : ∀ (l hi v : Nat), lo ≤ l → hi ≤ latest + 1 → (¬ l < hi → v ≤ lo) → l = lo → search ts t l hi v ≤ lo := by
      intro l hi v
      induction l, hi, v using search.induct ts t with
      | case1 l hi v hlt pivot heq =>
        intro h1 h2 _ _
        have := hall pivot (by omega) (by omega)
        have heq' : ts pivot = t := heq
        omega
      | case2 l hi v hlt pivot hne hlt2 ih =>
        intro h1 h2 _ _
        have := hall pivot (by omega) (by omega)
        have : ts pivot < t := hlt2
        omega
      | case3 l hi v hlt pivot hne hge ih =>
        intro h1 h2 h3 h4
        unfold search
        rw [if_pos hlt]
        simp only
        have hp : pivot = (l + (hi - 1)) / 2 := rfl
        rw [if_neg hne, if_neg hge]
        exact ih h1 (by omega) (by omega) h4
      | case4 l hi v hlt =>
        intro _ _ h3 _
        unfold search
        rw [if_neg hlt]
        exact h3 hlt
    unfold loadVersion
    exact Nat.max_eq_left (hs lo (latest + 1) lo (Nat.le_refl _) (Nat.le_refl _) (fun _ => Nat.le_refl _) rfl)
  · have := hall n hn.1 hn.2.1
    have := hn.2.2.1
    omega

/-- A history with times 100, 200, 300, 400. -/
example : (loadVersion (fun n => 100 * (n + 1)) 0 3 250 = 1) ∧
    (loadVersion (fun n => 100 * (n + 1)) 0 3 300 = 2) ∧
    (loadVersion (fun n => 100 * (n + 1)) 0 3 10000 = 3) := by
  decide +kernel

/-! ### The rewrite -/

theorem lowerC_idem (c : Char) : lowerC (lowerC c) = lowerC c := by
  unfold lowerC
  by_cases h : 'A' ≤ c ∧ c ≤ 'Z'
  · rw [if_pos h, if_neg]
    rintro ⟨h1, h2⟩
    have hc : c.toNat ≤ 90 := h.2
    have hc' : 65 ≤ c.toNat := h.1
    have hv : (c.toNat + 32).isValidChar := Or.inl (by omega)
    have : (Char.ofNat (c.toNat + 32)).toNat = c.toNat + 32 := by
      unfold Char.ofNat
      rw [dif_pos hv]
      rfl
    have h2' : (Char.ofNat (c.toNat + 32)).toNat ≤ 90 := h2
    omega
  · simp [if_neg h]

theorem lower_idem (s : Str) : lower (lower s) = lower s := by
  unfold lower
  rw [List.map_map]
  apply List.map_congr_left
  intro c _
  exact lowerC_idem c

theorem lower_append (a b : Str) : lower (a ++ b) = lower a ++ lower b := by simp [lower]

theorem norm_norm (i : Ident) : i.quoted = false → lower i.norm = i.norm := by
  intro h; simp [Ident.norm, h, lower_idem]

/-- What the planner makes of a rewritten name. -/
theorem rewrite_resolve (dc ds : Str) (r : TRef) (v : Str) (h : r.version = some v) :
    (rewriteRef r).resolve dc ds = { r.resolve dc ds with tab := withVersion r.table.norm v } := by
  unfold rewriteRef
  rw [h]
  simp only [TRef.resolve, Ident.norm]
  cases hq : r.table.quoted with
  | true => simp
  | false =>
    simp only [Bool.false_eq_true, if_false, withVersion, lower_append]
    simp only [lower, List.map_cons, lower_idem, Full.mk.injEq, true_and]
    have e1 : (r.table.value.map lowerC).map lowerC = r.table.value.map lowerC := lower_idem _
    have e2 : (v.map lowerC).map lowerC = v.map lowerC := lower_idem _
    rw [e1, e2]
    rfl

theorem withVersion_inj {a b v w : Str} (ha : ':' ∉ a) (hb : ':' ∉ b)
    (h : withVersion a v = withVersion b w) : a = b ∧ lower v = lower w := by
  unfold withVersion at h
  induction a generalizing b with
  | nil =>
    cases b with
    | nil => simp at h; exact ⟨rfl, h⟩
    | cons c b => simp at h; exact absurd (by simp [← h.1]) hb
  | cons c a ih =>
    cases b with
    | nil => simp at h; exact absurd (by simp [h.1]) ha
    | cons d b =>
      simp only [List.cons_append, List.cons.injEq] at h
      obtain ⟨h1, h2⟩ := ih (b := b) (fun hm => ha (by simp [hm])) (fun hm => hb (by simp [hm])) h.2
      exact ⟨by rw [h.1, h1], h2⟩

theorem mem_withVersion (a v : Str) : ':' ∈ withVersion a v := by simp [withVersion]

/-- What registration leaves at a key: the base table, or else the provider of some entry with that
key. -/
theorem registerAll_spec (E : Env) (base : Session) :
    ∀ (es : List (Full × Str)) (s s' : Session), registerAll E base s es = some s' →
    (∀ f, (s f).isSome → s' f = s f) ∧
    (∀ f, s f = none → (∀ e ∈ es, f ≠ { reparse e.1 with tab := withVersion e.1.tab e.2 }) →
      s' f = none) ∧
    (∀ e ∈ es, ∃ p t n, base (reparse e.1) = some p ∧ E.parse e.2 = some t ∧
      E.loadAt p.uuid t = some n) ∧
    (∀ f, s f = none → (∃ e ∈ es, f = { reparse e.1 with tab := withVersion e.1.tab e.2 }) →
      ∃ e ∈ es, f = { reparse e.1 with tab := withVersion e.1.tab e.2 } ∧
        ∃ p t n, base (reparse e.1) = some p ∧ E.parse e.2 = some t ∧ E.loadAt p.uuid t = some n ∧
          s' f = some ⟨p.uuid, n⟩) := by
  intro es
  induction es with
  | nil =>
    intro s s' h
    simp [registerAll] at h
    subst h
    exact ⟨fun _ _ => rfl, fun f hf _ => hf, by simp, by simp⟩
  | cons e rest ih =>
    intro s s' h
    unfold registerAll at h
    cases hr : registerOne E base s e with
    | none => rw [hr] at h; simp at h
    | some s1 =>
      rw [hr] at h
      simp only at h
      obtain ⟨i1, i2, i3, i4⟩ := ih s1 s' h
      unfold registerOne at hr
      cases hb : base (reparse e.1) with
      | none => rw [hb] at hr; simp at hr
      | some p =>
        rw [hb] at hr
        simp only at hr
        cases hp : E.parse e.2 with
        | none => rw [hp] at hr; simp at hr
        | some t =>
          rw [hp] at hr
          simp only at hr
          cases hl : E.loadAt p.uuid t with
          | none => rw [hl] at hr; simp at hr
          | some n =>
            rw [hl] at hr
            simp only at hr
            have h3 : ∃ p t n, base (reparse e.1) = some p ∧ E.parse e.2 = some t ∧
                E.loadAt p.uuid t = some n := ⟨p, t, n, hb, hp, hl⟩
            by_cases hs : (s { reparse e.1 with tab := withVersion e.1.tab e.2 }).isSome
            · rw [if_pos hs] at hr
              injection hr with hr
              subst hr
              refine ⟨i1, ?_, ?_, ?_⟩
              · intro f hf hne
                exact i2 f hf fun e' he' => hne e' (by simp [he'])
              · intro e' he'
                rcases List.mem_cons.1 he' with rfl | he'
                · exact h3
                · exact i3 e' he'
              · rintro f hf ⟨e', he', hfe⟩
                rcases List.mem_cons.1 he' with rfl | he'
                · subst hfe; rw [hf] at hs; simp at hs
                · obtain ⟨e2, h2, h2'⟩ := i4 f hf ⟨e', he', hfe⟩
                  exact ⟨e2, by simp [h2], h2'⟩
            · rw [if_neg hs] at hr
              injection hr with hr
              subst hr
              have hnone : s { reparse e.1 with tab := withVersion e.1.tab e.2 } = none := by
                simpa using hs
              refine ⟨?_, ?_, ?_, ?_⟩
              · intro f hf
                have hne : f ≠ { reparse e.1 with tab := withVersion e.1.tab e.2 } := by
                  rintro rfl; rw [hnone] at hf; simp at hf
                have := i1 f (by simp only [if_neg hne]; exact hf)
                rw [this]
                simp only [if_neg hne]
              · intro f hf hne
                have hne' := hne e (by simp)
                exact i2 f (by simp only [if_neg hne']; exact hf) fun e' he' => hne e' (by simp [he'])
              · intro e' he'
                rcases List.mem_cons.1 he' with rfl | he'
                · exact h3
                · exact i3 e' he'
              · rintro f hf ⟨e', he', hfe⟩
                by_cases hfk : f = { reparse e.1 with tab := withVersion e.1.tab e.2 }
                · refine ⟨e, by simp, hfk, p, t, n, hb, hp, hl, ?_⟩
                  have := i1 f (by simp only [if_pos hfk]; rfl)
                  rw [this]
                  simp only [if_pos hfk]
                · rcases List.mem_cons.1 he' with rfl | he'
                  · exact absurd hfe hfk
                  · obtain ⟨e2, h2, h2'⟩ :=
                      i4 f (by simp only [if_neg hfk]; exact hf) ⟨e', he', hfe⟩
                    exact ⟨e2, by simp [h2], h2'⟩

/-- **C45 (the query).** If the rewrite succeeds, every table factor with a timestamp reads that
very table at the version selected for that timestamp, and every other one reads what it reads
without time travel — for any number of tables and versions in one query and any order of the hash
set.  Partial: all names involved are lower case, no table name contains a colon, and the session's
default schema is `public` (the `C45_violated_…` theorems show that each is needed). -/
theorem C45_partial (E : Env) (base : Session) (dc : Str) (refs : List TRef)
    (order : List (Full × Str)) (out : List (Option Prov))
    (hcase : ∀ v, E.parse (lower v) = E.parse v)
    (hbase : ∀ f, (base f).isSome → ':' ∉ f.tab)
    (hlow : ∀ r ∈ refs, reparse (r.resolve dc publicSchema) = r.resolve dc publicSchema)
    (hcol : ∀ r ∈ refs, ':' ∉ r.table.norm)
    (hord : ∀ e, e ∈ order ↔ e ∈ entries dc refs)
    (h : planRefs E base dc publicSchema refs order = some out) :
    out.length = refs.length ∧
    ∀ (i : Nat) (r : TRef), refs[i]? = some r →
      (r.version = none → out[i]? = some (base (r.resolve dc publicSchema))) ∧
      (∀ v, r.version = some v → ∃ p t n, base (r.resolve dc publicSchema) = some p ∧
        E.parse v = some t ∧ E.loadAt p.uuid t = some n ∧ out[i]? = some (some ⟨p.uuid, n⟩)) := by
  unfold planRefs at h
  cases hr : registerAll E base base order with
  | none => rw [hr] at h; simp at h
  | some s =>
    rw [hr] at h
    injection h with h
    obtain ⟨i1, i2, i3, i4⟩ := registerAll_spec E base order base s hr
    subst h
    refine ⟨by simp, ?_⟩
    intro i r hi
    have hmem : r ∈ refs := List.mem_of_getElem? hi
    have hent : ∀ e ∈ order, ∃ r' ∈ refs, e.1 = r'.resolve dc publicSchema ∧
        r'.version = some e.2 := by
      intro e he
      have := (hord e).1 he
      unfold entries at this
      rw [List.mem_filterMap] at this
      obtain ⟨r', h1, h2⟩ := this
      rw [Option.map_eq_some_iff] at h2
      obtain ⟨v, h3, h4⟩ := h2
      subst h4
      exact ⟨r', h1, rfl, h3⟩
    constructor
    · intro hv
      have hrw : rewriteRef r = r := by unfold rewriteRef; rw [hv]
      simp only [List.getElem?_map, hi, Option.map_some, hrw]
      congr 1
      cases hb : base (r.resolve dc publicSchema) with
      | some p => rw [i1 _ (by rw [hb]; rfl), hb]
      | none =>
        apply i2 _ hb
        intro e he hc
        have : (r.resolve dc publicSchema).tab = withVersion e.1.tab e.2 := by rw [hc]
        exact hcol r hmem (by
          have h1 : (r.resolve dc publicSchema).tab = r.table.norm := rfl
          rw [← h1, this]
          exact mem_withVersion _ _)
    · intro v hv
      have hin : (r.resolve dc publicSchema, v) ∈ order := by
        rw [hord]
        unfold entries
        rw [List.mem_filterMap]
        exact ⟨r, hmem, by rw [hv]; rfl⟩
      have hkey : (rewriteRef r).resolve dc publicSchema =
          { reparse (r.resolve dc publicSchema) with
            tab := withVersion (r.resolve dc publicSchema).tab v } := by
        rw [rewrite_resolve dc publicSchema r v hv, hlow r hmem]
        rfl
      have hkn : base ((rewriteRef r).resolve dc publicSchema) = none := by
        refine Classical.byContradiction fun hc => ?_
        have hsome : (base ((rewriteRef r).resolve dc publicSchema)).isSome := by
          cases hx : base ((rewriteRef r).resolve dc publicSchema) with
          | none => exact absurd hx hc
          | some _ => rfl
        have := hbase _ hsome
        rw [hkey] at this
        exact this (mem_withVersion _ _)
      obtain ⟨e, he, hke, p, t, n, hb, hp, hl, hs⟩ :=
        i4 _ hkn ⟨_, hin, hkey⟩
      obtain ⟨r', hr', he1, he2⟩ := hent e he
      -- the entry that was registered is this one, up to the letter case of the version
      have hre : reparse e.1 = e.1 := by rw [he1]; exact hlow r' hr'
      rw [hkey, hlow r hmem, hre] at hke
      have htab : withVersion (r.resolve dc publicSchema).tab v = withVersion e.1.tab e.2 :=
        congrArg Full.tab hke
      have hcat := congrArg Full.cat hke
      have hsch := congrArg Full.sch hke
      simp only at hcat hsch
      have hc1 : ':' ∉ (r.resolve dc publicSchema).tab := hcol r hmem
      have hc2 : ':' ∉ e.1.tab := by rw [he1]; exact hcol r' hr'
      obtain ⟨ht1, ht2⟩ := withVersion_inj hc1 hc2 htab
      have heq : e.1 = r.resolve dc publicSchema := by
        cases hx : e.1 with
        | mk a b c =>
          cases hy : r.resolve dc publicSchema with
          | mk a' b' c' =>
            rw [hx] at hcat hsch ht1
            rw [hy] at hcat hsch ht1
            simp only at hcat hsch ht1
            rw [hcat, hsch, ht1]
      have hpv : E.parse v = some t := by
        rw [← hcase v, ht2, hcase, hp]
      refine ⟨p, t, n, ?_, hpv, hl, ?_⟩
      · rw [← heq, ← hre]; exact hb
      · simp only [List.getElem?_map, hi, Option.map_some, hs]

/-! ### Where it fails -/

/-- Timestamps are single letters here: `a` is 1, `b` is 2; the version found is the time. -/
def demoEnv : Env where
  parse := fun v => if lower v = ['a'] then some 1 else if lower v = ['b'] then some 2 else none
  loadAt := fun _ t => some t.toNat

def tref (tab : Str) (q : Bool) (v : Option Str) : TRef := ⟨none, none, ⟨tab, q⟩, v⟩

def full (sch tab : Str) : Full := ⟨['d'], sch, tab⟩

/-- A database with tables `t` (uuid 1), `T` (uuid 2) in `public` and `t` (uuid 3) in schema `x`. -/
def demoBase : Session := fun f =>
  if f = full publicSchema ['t'] then some ⟨1, 9⟩
  else if f = full publicSchema ['T'] then some ⟨2, 9⟩
  else if f = full ['x'] ['t'] then some ⟨3, 9⟩ else none

/-- `SELECT … FROM t('a'), t, t('b'), t('A'), x.t('a')`: each reads its own version. -/
example :
    let refs := [tref ['t'] false (some ['a']), tref ['t'] false none, tref ['T'] false (some ['b']),
      tref ['t'] true (some ['A']), ⟨none, some ⟨['x'], false⟩, ⟨['t'], false⟩, some ['a']⟩]
    planRefs demoEnv demoBase ['d'] publicSchema refs (entries ['d'] refs) =
      some [some ⟨1, 1⟩, some ⟨1, 9⟩, some ⟨1, 2⟩, some ⟨1, 1⟩, some ⟨3, 1⟩] := by
  decide +kernel

/-- The hypotheses of `C45_partial` hold for that query. -/
example :
    let refs := [tref ['t'] false (some ['a']), tref ['t'] false none, tref ['T'] false (some ['b']),
      tref ['t'] true (some ['A']), ⟨none, some ⟨['x'], false⟩, ⟨['t'], false⟩, some ['a']⟩]
    (∀ r ∈ refs, reparse (r.resolve ['d'] publicSchema) = r.resolve ['d'] publicSchema) ∧
    (∀ r ∈ refs, ':' ∉ r.table.norm) := by
  decide +kernel

/-- **C45 violated (quoted names).** `SELECT … FROM "T"('a')` reads a version of the table `t`: the
collected name is printed unquoted and parsed again. -/
theorem C45_violated_case :
    let refs := [tref ['T'] true (some ['a'])]
    planRefs demoEnv demoBase ['d'] publicSchema refs (entries ['d'] refs) = some [some ⟨1, 1⟩] ∧
    demoBase (full publicSchema ['T']) = some ⟨2, 9⟩ := by
  decide +kernel

/-- **C45 violated (default schema).** In a session whose default schema is `x`, `t('a')` is looked
up in `public` and registered there; the planner then does not find it, although `x.t` exists. -/
theorem C45_violated_schema :
    let refs := [tref ['t'] false (some ['a'])]
    planRefs demoEnv demoBase ['d'] ['x'] refs (entries ['d'] refs) = some [none] ∧
    (refs.map fun r => demoBase ({ r with version := none }.resolve ['d'] ['x'])) =
      [some ⟨3, 9⟩] := by
  decide +kernel

/-- **C45 violated (colliding names).** A table that happens to be called `t:a` hides the version
`a` of `t`. -/
theorem C45_violated_colon :
    let base : Session := fun f =>
      if f = full publicSchema ['t', ':', 'a'] then some ⟨7, 9⟩ else demoBase f
    let refs := [tref ['t'] false (some ['a'])]
    planRefs demoEnv base ['d'] publicSchema refs (entries ['d'] refs) = some [some ⟨7, 9⟩] := by
  decide +kernel

/-- The table and version a timestamp on the full name `f` selects, if there are any. -/
def Selected (E : Env) (base : Session) (f : Full) (v : Str) (q : Prov) : Prop :=
  ∃ p t, base f = some p ∧ E.parse v = some t ∧ E.loadAt p.uuid t = some q.version ∧ q.uuid = p.uuid

/-- **C45 (one table factor, exactly).** A query with one table factor with a timestamp, in any session: it fails to be
rewritten just if the name, folded to lower case in schema `public` by default, has no table or no such version; otherwise it
reads a table that is really called `name:version`, if there is one, or else the version, if folding and the default schema
of the session did not change the name, or else nothing. -/
theorem C45_one_factor (E : Env) (base : Session) (dc ds : Str) (r : TRef) (v : Str) (hv : r.version = some v) :
    let asked := r.resolve dc ds
    let looked := r.resolve dc publicSchema
    let colon : Full := { asked with tab := withVersion r.table.norm v }
    ((∀ q, ¬ Selected E base (reparse looked) v q) → planRefs E base dc ds [r] (entries dc [r]) = none) ∧
    (∀ q, Selected E base (reparse looked) v q →
      (∀ b, base colon = some b → planRefs E base dc ds [r] (entries dc [r]) = some [some b]) ∧
      (base colon = none → asked.cat = lower looked.cat → asked.sch = lower looked.sch →
        planRefs E base dc ds [r] (entries dc [r]) = some [some q]) ∧
      (base colon = none → ¬ (asked.cat = lower looked.cat ∧ asked.sch = lower looked.sch) →
        planRefs E base dc ds [r] (entries dc [r]) = some [none])) := by
  intro asked looked colon
  have hent : entries dc [r] = [(looked, v)] := by simp [entries, hv, looked]
  have htab : looked.tab = r.table.norm := rfl
  have hcol : (rewriteRef r).resolve dc ds = colon := rewrite_resolve dc ds r v hv
  have hp : planRefs E base dc ds [r] (entries dc [r]) =
      (registerOne E base base (looked, v)).map (fun s => [s colon]) := by
    rw [hent]
    simp only [planRefs, registerAll]
    cases registerOne E base base (looked, v) with
    | none => rfl
    | some s => simp [registerAll, hcol]
  rw [hp]
  constructor
  · intro hno
    cases hb : base (reparse looked) with
    | none => simp [registerOne, hb]
    | some p =>
      cases ht : E.parse v with
      | none => simp [registerOne, hb, ht]
      | some t =>
        cases hl : E.loadAt p.uuid t with
        | none => simp [registerOne, hb, ht, hl]
        | some n => exact absurd ⟨p, t, hb, ht, hl, rfl⟩ (hno ⟨p.uuid, n⟩)
  · rintro ⟨u, n⟩ ⟨p, t, hb, ht, hl, hu⟩
    simp only at hl hu
    subst hu
    let key : Full := { reparse looked with tab := withVersion looked.tab v }
    have hone : registerOne E base base (looked, v) = if (base key).isSome then some base
        else some fun f => if f = key then some ⟨p.uuid, n⟩ else base f := by
      simp [registerOne, hb, ht, hl, key]
    have hkc : colon = key ↔ asked.cat = lower looked.cat ∧ asked.sch = lower looked.sch := by
      simp only [colon, key, reparse, htab, Full.mk.injEq, and_true]
    rw [hone]
    refine ⟨?_, ?_, ?_⟩
    · intro b hbc
      by_cases hk : (base key).isSome = true
      · simp [hk, hbc]
      · have : colon ≠ key := by
          intro e; rw [← e, hbc] at hk; exact hk rfl
        simp [hk, hbc, this]
    · intro hbc h1 h2
      have e := hkc.2 ⟨h1, h2⟩
      have hk : (base key).isSome = false := by rw [← e, hbc]; rfl
      simp [hk, e]
    · intro hbc hne
      have e : colon ≠ key := fun e => hne (hkc.1 e)
      by_cases hk : (base key).isSome = true
      · simp [hk, hbc]
      · simp [hk, hbc, e]

/-- **C45 violated (quoted names), always.** A timestamp on a name with upper case letters in quotes never reads a version of
the table of that name: it reads the table of the name in lower case, or a table with a colon in its name, or fails. -/
theorem C45_violated_case_always (E : Env) (base : Session) (dc ds : Str) (r : TRef) (v : Str) (hv : r.version = some v)
    (huniq : ∀ f g p q, base f = some p → base g = some q → p.uuid = q.uuid → f = g)
    (hcol : ':' ∉ r.table.norm)
    (hup : lower r.table.norm ≠ r.table.norm) (out : List (Option Prov))
    (h : planRefs E base dc ds [r] (entries dc [r]) = some out) :
    ∀ p q, base (r.resolve dc ds) = some p → some q ∈ out → q.uuid ≠ p.uuid := by
  intro p q hp hq hpq
  obtain ⟨h1, h2⟩ := C45_one_factor E base dc ds r v hv
  by_cases hs : ∃ q, Selected E base (reparse (r.resolve dc publicSchema)) v q
  · obtain ⟨q', hs'⟩ := hs
    obtain ⟨i1, i2, i3⟩ := h2 q' hs'
    cases hb : base { r.resolve dc ds with tab := withVersion r.table.norm v } with
    | some b =>
      rw [i1 b hb] at h
      injection h with h
      subst h
      simp only [List.mem_singleton, Option.some.injEq] at hq
      subst hq
      have := congrArg Full.tab (huniq _ _ _ _ hb hp hpq)
      simp only at this
      have e : (r.resolve dc ds).tab = r.table.norm := rfl
      rw [e] at this
      exact hcol (by rw [← this]; exact mem_withVersion _ _)
    | none =>
      by_cases hc : (r.resolve dc ds).cat = lower (r.resolve dc publicSchema).cat ∧
          (r.resolve dc ds).sch = lower (r.resolve dc publicSchema).sch
      · rw [i2 hb hc.1 hc.2] at h
        injection h with h
        subst h
        simp only [List.mem_singleton, Option.some.injEq] at hq
        subst hq
        obtain ⟨p', t, hb', _, _, hu⟩ := hs'
        have := congrArg Full.tab (huniq _ _ _ _ hb' hp (by rw [← hu, hpq]))
        exact hup this
      · rw [i3 hb hc] at h
        injection h with h
        subst h
        simp at hq
  · rw [h1 (fun q hq => hs ⟨q, hq⟩)] at h
    cases h

/-- **C45 violated (default schema), always.** In a session with a default schema other than `public`, a timestamp on a name
without a schema never reads a version: the query does not find the table it registered, or fails before that. -/
theorem C45_violated_schema_always (E : Env) (base : Session) (dc ds : Str) (r : TRef) (v : Str) (hv : r.version = some v)
    (hsch : r.schema = none) (hds : ds ≠ publicSchema)
    (hno : base { r.resolve dc ds with tab := withVersion r.table.norm v } = none) :
    planRefs E base dc ds [r] (entries dc [r]) = none ∨ planRefs E base dc ds [r] (entries dc [r]) = some [none] := by
  obtain ⟨h1, h2⟩ := C45_one_factor E base dc ds r v hv
  by_cases hs : ∃ q, Selected E base (reparse (r.resolve dc publicSchema)) v q
  · obtain ⟨q, hs⟩ := hs
    refine Or.inr ((h2 q hs).2.2 hno ?_)
    rintro ⟨_, h⟩
    apply hds
    have e1 : (r.resolve dc ds).sch = ds := by simp [TRef.resolve, hsch]
    have e2 : (r.resolve dc publicSchema).sch = publicSchema := by simp [TRef.resolve, hsch]
    rw [e1, e2] at h
    rw [h]; decide +kernel
  · exact Or.inl (h1 fun q hq => hs ⟨q, hq⟩)

/-- Cases of the two theorems. -/
example : lower (tref ['T'] true (some ['a'])).table.norm ≠ (tref ['T'] true (some ['a'])).table.norm ∧
    (tref ['t'] false (some ['a'])).schema = none ∧ demoBase ((tref ['T'] true none).resolve ['d'] publicSchema) = some ⟨2, 9⟩ ∧
    (∃ q, Selected demoEnv demoBase (reparse ((tref ['T'] true (some ['a'])).resolve ['d'] publicSchema)) ['a'] q) :=
  ⟨by decide +kernel, rfl, by decide +kernel, ⟨1, 1⟩, ⟨1, 9⟩, 1, by decide +kernel, by decide +kernel, rfl, rfl⟩

/-- **C45 violated (concurrent queries).** A statement that starts between the registration and the
planning of a time travel query makes it fail, and one planned right after the registration sees the
versioned table as a table of the database. -/
theorem C45_violated_race :
    let r := tref ['t'] false (some ['a'])
    let e := (r.resolve ['d'] publicSchema, ['a'])
    -- undisturbed
    runShared demoEnv demoBase demoBase [.reload, .register e]
      ((rewriteRef r).resolve ['d'] publicSchema) = some ⟨1, 1⟩ ∧
    -- another statement reloads the schema before the query is planned
    runShared demoEnv demoBase demoBase [.reload, .register e, .reload]
      ((rewriteRef r).resolve ['d'] publicSchema) = none ∧
    -- another statement, past its own reload, reads the table named `t:a`
    runShared demoEnv demoBase demoBase [.reload, .reload, .register e]
      ((tref ['t', ':', 'a'] true none).resolve ['d'] publicSchema) = some ⟨1, 1⟩ ∧
    demoBase ((tref ['t', ':', 'a'] true none).resolve ['d'] publicSchema) = none := by
  decide +kernel

/-- **C45 violated (concurrent queries), always.** Whatever was registered, if another statement starts right before a time
travel query is planned, the query finds nothing but a table that is really called `name:version`. -/
theorem C45_violated_race_always (E : Env) (base s : Session) (dc ds : Str) (steps : List Step) (r : TRef) (v : Str)
    (hv : r.version = some v) :
    runShared E base s (steps ++ [.reload]) ((rewriteRef r).resolve dc ds) =
      base { r.resolve dc ds with tab := withVersion r.table.norm v } := by
  rw [rewrite_resolve dc ds r v hv]
  simp [runShared, stepShared]

/-- With one statement at a time the shared catalog gives what `planRefs` says. -/
theorem C45_sequential (E : Env) (base : Session) (s : Session) (order : List (Full × Str))
    (s' : Session) (h : registerAll E base base order = some s') :
    runShared E base s (.reload :: order.map .register) = s' := by
  unfold runShared
  simp only [List.foldl_cons, stepShared]
  have : ∀ (order : List (Full × Str)) (s0 s' : Session), registerAll E base s0 order = some s' →
      (order.map Step.register).foldl (stepShared E base) s0 = s' := by
    intro order
    induction order with
    | nil => intro s0 s' h; simpa [registerAll] using h
    | cons e rest ih =>
      intro s0 s' h
      unfold registerAll at h
      cases hr : registerOne E base s0 e with
      | none => rw [hr] at h; simp at h
      | some s1 =>
        rw [hr] at h
        simp only [List.map_cons, List.foldl_cons, stepShared, hr, Option.getD_some]
        exact ih s1 s' h
  exact this order base s' h

end Seafowl.TimeTravel
