import Verif.Catalog.Meta
import Verif.Catalog.ListProps

/-!
# C84: a table name leads to the place the metastore gives for it
-/

namespace Seafowl.Meta

/-! ### Specification -/

/-- `a` is the last element of the list with this name. -/
def Last (name : α → String) (l : List α) (n : String) (a : α) : Prop :=
  ∃ pre suf, l = pre ++ a :: suf ∧ name a = n ∧ ∀ b ∈ suf, name b ≠ n

/-- `m` is the location and the path with exactly one slash between them. -/
def Joined (location path m : Text) : Prop :=
  ∃ l0 p0 i j, location = l0 ++ List.replicate i '/' ∧ l0.getLast? ≠ some '/' ∧
    path = List.replicate j '/' ++ p0 ∧ p0.head? ≠ some '/' ∧ m = l0 ++ '/' :: p0

/-- Where the listing says that the data of a table are. -/
inductive At (env : Env) (l : Listing) (t : TableObj) : Place → Prop
  | delta (st : StorageLoc) (n : String) (hf : t.format = 0) (hn : t.store = some n) (hs : Last (·.name) l.stores n st)
      (hu : env.urlOk st.location = true) (hb : env.storeOk st.location st.options = true) :
      At env l t (.delta st.location st.options t.path)
  | default (hf : t.format = 0) (hn : t.store = none) (hd : env.hasDefault = true) : At env l t (.deltaDefault t.path)
  | iceberg (st : StorageLoc) (n : String) (m : Text) (hf : t.format = 1) (hn : t.store = some n)
      (hs : Last (·.name) l.stores n st) (hj : Joined st.location t.path m) (hi : env.icebergOk m st.options = true) :
      At env l t (.iceberg m st.options)

/-! ### maps -/

theorem get_insertKey [DecidableEq κ] (m : List (κ × ν)) (k k' : κ) (v : ν) :
    get (insertKey m k v) k' = if k = k' then some v else get m k' := by
  unfold get insertKey
  by_cases h : k = k'
  · subst h; simp
  · rw [List.find?_cons_of_neg (by simpa using h), if_neg h, List.find?_filter]
    congr 2
    funext e
    by_cases he : e.1 = k'
    · have : e.1 ≠ k := fun x => h (x.symm.trans he)
      simp [he]
      intro x; exact h x.symm
    · simp [he]

theorem get_foldl [DecidableEq κ] (l : List (κ × ν)) (m : List (κ × ν)) (k : κ) :
    get (l.foldl (fun m e => insertKey m e.1 e.2) m) k = (get l.reverse k).or (get m k) := by
  induction l generalizing m with
  | nil => simp [get]
  | cons e l ih =>
    rw [List.foldl_cons, ih, get_insertKey]
    have : get (e :: l).reverse k = (get l.reverse k).or (if e.1 = k then some e.2 else none) := by
      unfold get
      rw [List.reverse_cons, List.find?_append]
      by_cases h : e.1 = k
      · simp [h]
      · simp [h]
    rw [this]
    split <;> simp

theorem get_collect [DecidableEq κ] (l : List (κ × ν)) (k : κ) : get (collect l) k = get l.reverse k := by
  unfold collect
  rw [get_foldl]
  simp [get]

/-- The value under a key is that of the last pair with this key. -/
theorem get_collect_some {ν : Type} (l : List (String × ν)) (k : String) (v : ν) :
    get (collect l) k = some v ↔ Last (·.1) l k (k, v) := by
  rw [get_collect]
  induction l with
  | nil =>
    constructor
    · intro h; simp [get] at h
    · rintro ⟨pre, suf, h, _⟩; simp at h
  | cons e l ih =>
    have hr : get (e :: l).reverse k = (get l.reverse k).or (if e.1 = k then some e.2 else none) := by
      unfold get
      rw [List.reverse_cons, List.find?_append]
      by_cases h : e.1 = k
      · simp [h]
      · simp [h]
    have hnone : get l.reverse k = none ↔ ∀ b ∈ l, b.1 ≠ k := by
      unfold get
      simp [List.find?_eq_none]
    rw [hr, Option.or_eq_some_iff, ih, hnone]
    constructor
    · rintro (⟨pre, suf, rfl, h1, h2⟩ | ⟨hn, he⟩)
      · exact ⟨e :: pre, suf, rfl, h1, h2⟩
      · split at he
        · rename_i hk
          simp only [Option.some.injEq] at he
          subst hk he
          exact ⟨[], l, rfl, rfl, hn⟩
        · simp at he
    · rintro ⟨pre, suf, h, h1, h2⟩
      cases pre with
      | nil =>
        simp only [List.nil_append, List.cons.injEq] at h
        obtain ⟨rfl, rfl⟩ := h
        exact .inr ⟨h2, by simp⟩
      | cons a pre =>
        simp only [List.cons_append, List.cons.injEq] at h
        obtain ⟨rfl, rfl⟩ := h
        exact .inl ⟨pre, suf, rfl, h1, h2⟩

theorem last_map {f : α → β} {name : α → String} {name' : β → String} (hf : ∀ a, name' (f a) = name a) (l : List α)
    (n : String) (b : β) : Last name' (l.map f) n b ↔ ∃ a, f a = b ∧ Last name l n a := by
  constructor
  · rintro ⟨pre, suf, h, h1, h2⟩
    obtain ⟨l1, l2, rfl, rfl, h4⟩ := List.map_eq_append_iff.mp h
    obtain ⟨a, l3, rfl, rfl, rfl⟩ := List.map_eq_cons_iff.mp h4
    refine ⟨a, rfl, l1, l3, rfl, by rw [← hf]; exact h1, ?_⟩
    intro x hx
    rw [← hf]
    exact h2 _ (List.mem_map_of_mem hx)
  · rintro ⟨a, rfl, pre, suf, rfl, h1, h2⟩
    refine ⟨pre.map f, suf.map f, by simp, by rw [hf]; exact h1, ?_⟩
    intro b hb
    obtain ⟨x, hx, rfl⟩ := List.mem_map.mp hb
    rw [hf]
    exact h2 x hx

theorem get_storeOptions (l : List StorageLoc) (n : String) (loc : Text) (o : Opts) :
    get (storeOptions l) n = some (loc, o) ↔ ∃ st, Last (·.name) l n st ∧ st.location = loc ∧ st.options = o := by
  unfold storeOptions
  rw [get_collect_some, last_map (f := fun s : StorageLoc => (s.name, (s.location, s.options))) (name := (·.name)) (name' := (·.1)) (fun _ => rfl)]
  constructor
  · rintro ⟨st, h, hl⟩
    simp only [Prod.mk.injEq] at h
    exact ⟨st, hl, h.2.1, h.2.2⟩
  · rintro ⟨st, hl, rfl, rfl⟩
    refine ⟨st, ?_, hl⟩
    obtain ⟨_, _, _, hn, _⟩ := hl
    rw [← hn]

theorem get_storeOptions_none (l : List StorageLoc) (n : String) :
    get (storeOptions l) n = none ↔ ∀ st, ¬ Last (·.name) l n st := by
  constructor
  · intro h st hl
    have := (get_storeOptions l n st.location st.options).mpr ⟨st, hl, rfl, rfl⟩
    rw [h] at this
    simp at this
  · intro h
    cases hg : get (storeOptions l) n with
    | none => rfl
    | some x =>
      obtain ⟨st, hl, _⟩ := (get_storeOptions l n x.1 x.2).mp hg
      exact absurd hl (h st)

/-! ### joining paths -/

theorem trimStart_spec : ∀ l : Text, ∃ j, l = List.replicate j '/' ++ trimStart l ∧ (trimStart l).head? ≠ some '/'
  | [] => ⟨0, by simp [trimStart], by simp [trimStart]⟩
  | c :: l => by
    by_cases h : c = '/'
    · subst h
      obtain ⟨j, h1, h2⟩ := trimStart_spec l
      refine ⟨j + 1, ?_, by simpa [trimStart] using h2⟩
      rw [trimStart, List.replicate_succ, List.cons_append, ← h1]
    · have e : trimStart (c :: l) = c :: l := by
        unfold trimStart
        split
        · rename_i x; simp at x; exact absurd x.1 h
        · rfl
      rw [e]
      exact ⟨0, by simp, by simp [h]⟩

theorem trimStart_unique (j : Nat) (p0 : Text) (h : p0.head? ≠ some '/') :
    trimStart (List.replicate j '/' ++ p0) = p0 := by
  induction j with
  | zero =>
    cases p0 with
    | nil => simp [trimStart]
    | cons c p =>
      have : c ≠ '/' := by simpa using h
      simp only [List.replicate_zero, List.nil_append]
      unfold trimStart
      split
      · rename_i x; simp at x; exact absurd x.1 this
      · rfl
  | succ j ih =>
    rw [List.replicate_succ, List.cons_append, trimStart, ih]

theorem joined_iff (location path m : Text) :
    Joined location path m ↔ m = trimEnd location ++ '/' :: trimStart path := by
  constructor
  · rintro ⟨l0, p0, i, j, rfl, h1, rfl, h2, rfl⟩
    unfold trimEnd
    rw [List.reverse_append, List.reverse_replicate, trimStart_unique j p0 h2,
      trimStart_unique i l0.reverse (by rwa [List.head?_reverse]), List.reverse_reverse]
  · rintro rfl
    obtain ⟨i, h1, h2⟩ := trimStart_spec location.reverse
    obtain ⟨j, h3, h4⟩ := trimStart_spec path
    refine ⟨trimEnd location, trimStart path, i, j, ?_, ?_, h3, h4, rfl⟩
    · have := congrArg List.reverse h1
      rw [List.reverse_reverse, List.reverse_append, List.reverse_replicate] at this
      exact this
    · unfold trimEnd
      rwa [List.getLast?_reverse]

/-! ### tables -/

theorem buildDelta_ok (env : Env) (l : Listing) (t : TableObj) (hf : t.format = 0) (p : Place) :
    buildDelta env (storeOptions l.stores) t = .ok p ↔ At env l t p := by
  constructor
  · intro h
    unfold buildDelta at h
    split at h
    · rename_i n hn
      split at h
      · simp at h
      · rename_i loc o hg
        obtain ⟨st, hl, rfl, rfl⟩ := (get_storeOptions _ _ _ _).mp hg
        split at h
        · split at h
          · rename_i hu hb
            simp only [Except.ok.injEq] at h
            subst h
            exact .delta st n hf hn hl hu hb
          · simp at h
        · simp at h
    · rename_i hn
      split at h
      · rename_i hd
        simp only [Except.ok.injEq] at h
        subst h
        exact .default hf hn hd
      · simp at h
  · intro h
    cases h with
    | delta st n _ hn hs hu hb =>
      unfold buildDelta
      rw [hn]
      simp only [(get_storeOptions _ _ _ _).mpr ⟨st, hs, rfl, rfl⟩, hu, hb, if_true]
    | default _ hn hd =>
      unfold buildDelta
      rw [hn]
      simp only [hd, if_true]
    | iceberg st n m hf' => rw [hf] at hf'; simp at hf'

theorem buildIceberg_ok (env : Env) (l : Listing) (t : TableObj) (hf : t.format = 1) (p : Place) :
    buildIceberg env (storeOptions l.stores) t = .ok p ↔ At env l t p := by
  constructor
  · intro h
    unfold buildIceberg at h
    split at h
    · rename_i n hn
      split at h
      · simp at h
      · rename_i loc o hg
        obtain ⟨st, hl, rfl, rfl⟩ := (get_storeOptions _ _ _ _).mp hg
        simp only at h
        split at h
        · rename_i hi
          simp only [Except.ok.injEq] at h
          subst h
          exact .iceberg st n _ hf hn hl ((joined_iff _ _ _).mpr rfl) hi
        · simp at h
    · simp at h
  · intro h
    cases h with
    | delta st n hf' => rw [hf] at hf'; simp at hf'
    | default hf' => rw [hf] at hf'; simp at hf'
    | iceberg st n m _ hn hs hj hi =>
      rw [joined_iff] at hj
      subst hj
      unfold buildIceberg
      rw [hn]
      simp only [(get_storeOptions _ _ _ _).mpr ⟨st, hs, rfl, rfl⟩, hi, if_true]

theorem buildTable_ok (env : Env) (l : Listing) (t : TableObj) (r : String × Place) :
    buildTable env (storeOptions l.stores) t = .ok r ↔ r.1 = t.name ∧ At env l t r.2 := by
  obtain ⟨n, p⟩ := r
  unfold buildTable
  by_cases h0 : t.format = 0
  · rw [if_pos h0, ← buildDelta_ok env l t h0 p]
    split <;> rename_i h <;> rw [h] <;> simp [eq_comm]
  · rw [if_neg h0]
    by_cases h1 : t.format = 1
    · rw [if_pos h1, ← buildIceberg_ok env l t h1 p]
      split <;> rename_i h <;> rw [h] <;> simp [eq_comm]
    · rw [if_neg h1]
      constructor
      · intro h; simp at h
      · rintro ⟨_, h⟩
        cases h with
        | delta st n hf => exact absurd hf h0
        | default hf => exact absurd hf h0
        | iceberg st n m hf => exact absurd hf h1

/-- The place of a table is unique. -/
theorem at_unique {env : Env} {l : Listing} {t : TableObj} {p q : Place} (hp : At env l t p) (hq : At env l t q) :
    p = q := by
  have h1 := (buildTable_ok env l t (t.name, p)).mpr ⟨rfl, hp⟩
  have h2 := (buildTable_ok env l t (t.name, q)).mpr ⟨rfl, hq⟩
  rw [h1] at h2
  simpa using h2

theorem tryCollect_ok (f : α → Except Err β) : ∀ (l : List α) (bs : List β), tryCollect f l = .ok bs →
    l.length = bs.length ∧ ∀ (i : Nat) (a : α) (b : β), l[i]? = some a → bs[i]? = some b → f a = .ok b
  | [], bs, h => by
    simp only [tryCollect, Except.ok.injEq] at h
    subst h
    simp
  | a :: l, bs, h => by
    unfold tryCollect at h
    split at h
    · simp at h
    · rename_i b hb
      split at h
      · simp at h
      · rename_i bs' hbs
        simp only [Except.ok.injEq] at h
        subst h
        obtain ⟨h1, h2⟩ := tryCollect_ok f l bs' hbs
        refine ⟨by simp [h1], ?_⟩
        intro i x y hx hy
        cases i with
        | zero => simp at hx hy; subst hx hy; exact hb
        | succ i => exact h2 i x y (by simpa using hx) (by simpa using hy)

theorem last_cons (nm : γ → String) (n : String) (c : γ) (cs : List γ) (x : γ) :
    Last nm (c :: cs) n x ↔ Last nm cs n x ∨ (x = c ∧ nm c = n ∧ ∀ y ∈ cs, nm y ≠ n) := by
  constructor
  · rintro ⟨pre, suf, h, h1, h2⟩
    cases pre with
    | nil => simp only [List.nil_append, List.cons.injEq] at h; obtain ⟨rfl, rfl⟩ := h; exact .inr ⟨rfl, h1, h2⟩
    | cons d pre =>
      simp only [List.cons_append, List.cons.injEq] at h
      obtain ⟨rfl, rfl⟩ := h
      exact .inl ⟨pre, suf, rfl, h1, h2⟩
  · rintro (⟨pre, suf, rfl, h1, h2⟩ | ⟨rfl, h1, h2⟩)
    · exact ⟨c :: pre, suf, rfl, h1, h2⟩
    · exact ⟨[], cs, rfl, h1, h2⟩

theorem tryCollect_map (f : α → Except Err β) (l : List α) (bs : List β) (h : tryCollect f l = .ok bs)
    {name : α → String} {name' : β → String} (hn : ∀ a b, f a = .ok b → name' b = name a) (n : String) (b : β) :
    Last name' bs n b ↔ ∃ a, f a = .ok b ∧ Last name l n a := by
  induction l generalizing bs with
  | nil =>
    simp only [tryCollect, Except.ok.injEq] at h
    subst h
    constructor
    · rintro ⟨pre, suf, h, _⟩; simp at h
    · rintro ⟨_, _, pre, suf, h, _⟩; simp at h
  | cons a l ih =>
    unfold tryCollect at h
    split at h
    · simp at h
    · rename_i b0 hb
      split at h
      · simp at h
      · rename_i bs' hbs
        simp only [Except.ok.injEq] at h
        subst h
        have ih' := ih bs' hbs
        have hnames : (∀ y ∈ bs', name' y ≠ n) ↔ ∀ x ∈ l, name x ≠ n := by
          obtain ⟨hl, hi⟩ := tryCollect_ok f l bs' hbs
          constructor
          · intro hy x hx e
            obtain ⟨i, hi1, hi2⟩ := List.mem_iff_getElem.mp hx
            have hi3 : i < bs'.length := by omega
            refine hy bs'[i] (List.getElem_mem hi3) ?_
            rw [hn x _ (hi i x _ (by rw [← hi2]; exact List.getElem?_eq_getElem hi1) (List.getElem?_eq_getElem hi3)), e]
          · intro hx y hy e
            obtain ⟨i, hi1, hi2⟩ := List.mem_iff_getElem.mp hy
            have hi3 : i < l.length := by omega
            refine hx l[i] (List.getElem_mem hi3) ?_
            rw [← hn _ y (hi i _ y (List.getElem?_eq_getElem hi3) (by rw [← hi2]; exact List.getElem?_eq_getElem hi1)), e]
        rw [last_cons, ih', hnames]
        constructor
        · rintro (⟨x, hx, hl⟩ | ⟨rfl, h1, h2⟩)
          · exact ⟨x, hx, (last_cons _ _ _ _ _).mpr (.inl hl)⟩
          · exact ⟨a, hb, (last_cons _ _ _ _ _).mpr (.inr ⟨rfl, by rw [← hn a b hb]; exact h1, h2⟩)⟩
        · rintro ⟨x, hx, hl⟩
          rcases (last_cons _ _ _ _ _).mp hl with hl | ⟨rfl, h1, h2⟩
          · exact .inl ⟨x, hx, hl⟩
          · rw [hb] at hx
            simp only [Except.ok.injEq] at hx
            subst hx
            exact .inr ⟨rfl, by rw [hn x b0 hb]; exact h1, h2⟩

theorem tryCollect_exists (f : α → Except Err β) : ∀ l : List α, (∃ bs, tryCollect f l = .ok bs) ↔ ∀ a ∈ l, ∃ b, f a = .ok b
  | [] => by simp [tryCollect]
  | a :: l => by
    have ih := tryCollect_exists f l
    unfold tryCollect
    constructor
    · rintro ⟨bs, h⟩
      split at h
      · simp at h
      · rename_i b hb
        split at h
        · simp at h
        · rename_i bs' hbs
          intro x hx
          rcases List.mem_cons.mp hx with rfl | hx
          · exact ⟨b, hb⟩
          · exact ih.mp ⟨bs', hbs⟩ x hx
    · intro h
      obtain ⟨b, hb⟩ := h a (by simp)
      obtain ⟨bs, hbs⟩ := ih.mpr (fun x hx => h x (List.mem_cons_of_mem _ hx))
      exact ⟨b :: bs, by simp [hb, hbs]⟩

/-! ### C84 -/

/-- **C84 (names).** In the catalog built from a listing, a name of an ordinary schema stands for the table with
this name in the schema with this name (the last ones, if a name occurs more than once), at the place the
listing gives for it; and no other name stands for a table. -/
theorem C84_resolves (env : Env) (l : Listing) (d : Database) (hb : buildCatalog env l = .ok d) (schema table : String)
    (h1 : schema ≠ "staging") (h2 : schema ≠ "system") (p : Place) :
    find d schema table = .table (some p) ↔
      ∃ s t, Last (·.name) l.schemas schema s ∧ Last (·.name) s.tables table t ∧ At env l t p := by
  unfold buildCatalog at hb
  split at hb
  · simp at hb
  · rename_i ss hss
    simp only [Except.ok.injEq] at hb
    subst hb
    have hname : ∀ s r, buildSchema env (storeOptions l.stores) s = .ok r → r.1 = s.name := by
      intro s r hr
      unfold buildSchema at hr
      split at hr
      · simp at hr
      · simp only [Except.ok.injEq] at hr; subst hr; rfl
    have htab : ∀ s ts, buildSchema env (storeOptions l.stores) s = .ok (schema, ts) →
        (get ts table = some p ↔ ∃ t, Last (·.name) s.tables table t ∧ At env l t p) := by
      intro s ts hr
      unfold buildSchema at hr
      split at hr
      · simp at hr
      · rename_i rows hrows
        simp only [Except.ok.injEq, Prod.mk.injEq] at hr
        obtain ⟨_, rfl⟩ := hr
        rw [get_collect_some, tryCollect_map _ _ _ hrows (name := (·.name)) (name' := (·.1))
          (fun a b hab => ((buildTable_ok env l a b).mp hab).1)]
        constructor
        · rintro ⟨t, ht, hl⟩
          exact ⟨t, hl, ((buildTable_ok env l t _).mp ht).2⟩
        · rintro ⟨t, hl, ha⟩
          refine ⟨t, (buildTable_ok env l t _).mpr ⟨?_, ha⟩, hl⟩
          obtain ⟨_, _, _, hn, _⟩ := hl
          exact hn.symm
    unfold find
    rw [if_neg h1, if_neg h2]
    simp only [Found.table.injEq, Option.bind_eq_some_iff, get_collect_some]
    constructor
    · rintro ⟨ts, hl, hp⟩
      obtain ⟨s, hs, hl'⟩ := (tryCollect_map _ _ _ hss (name := (·.name)) (name' := (·.1)) hname _ _).mp hl
      obtain ⟨t, ht, ha⟩ := (htab s ts hs).mp hp
      exact ⟨s, t, hl', ht, ha⟩
    · rintro ⟨s, t, hs, ht, ha⟩
      have hmem : s ∈ l.schemas := by obtain ⟨pre, suf, e, _⟩ := hs; rw [e]; simp
      obtain ⟨⟨n, ts⟩, hr⟩ := (tryCollect_exists _ _).mp ⟨ss, hss⟩ s hmem
      have hn : n = schema := by
        have := hname s _ hr
        obtain ⟨_, _, _, hn, _⟩ := hs
        exact this.trans hn
      subst hn
      exact ⟨ts, (tryCollect_map _ _ _ hss (name := (·.name)) (name' := (·.1)) hname _ _).mpr ⟨s, hr, hs⟩,
        (htab s ts hr).mpr ⟨t, ht, ha⟩⟩

/-- With distinct names "the last one" is "the one". -/
theorem C84_distinct (name : α → String) (l : List α) (hn : (l.map name).Nodup) (n : String) (a : α) :
    Last name l n a ↔ a ∈ l ∧ name a = n := by
  constructor
  · rintro ⟨pre, suf, rfl, h, _⟩
    exact ⟨by simp, h⟩
  · rintro ⟨hm, h⟩
    obtain ⟨pre, suf, rfl⟩ := List.append_of_mem hm
    refine ⟨pre, suf, rfl, h, ?_⟩
    intro b hb e
    rw [List.map_append, List.map_cons, List.nodup_append] at hn
    exact (List.nodup_cons.mp hn.2.1).1 (by rw [h, ← e]; exact List.mem_map_of_mem hb)

/-- **C84 (all or nothing).** The catalog can be built exactly if every table of the listing has a place; one
table that has none makes all statements fail. -/
theorem C84_builds (env : Env) (l : Listing) :
    (∃ d, buildCatalog env l = .ok d) ↔ ∀ s ∈ l.schemas, ∀ t ∈ s.tables, ∃ p, At env l t p := by
  have h1 : (∃ d, buildCatalog env l = .ok d) ↔
      ∃ ss, tryCollect (buildSchema env (storeOptions l.stores)) l.schemas = .ok ss := by
    unfold buildCatalog
    split
    · rename_i h; simp [h]
    · rename_i ss h; simp [h]
  have h2 : ∀ s, (∃ r, buildSchema env (storeOptions l.stores) s = .ok r) ↔
      ∃ ts, tryCollect (buildTable env (storeOptions l.stores)) s.tables = .ok ts := by
    intro s
    unfold buildSchema
    split
    · rename_i h; simp [h]
    · rename_i ss h; simp [h]
  rw [h1, tryCollect_exists]
  constructor
  · intro h s hs t ht
    obtain ⟨r, hr⟩ := (tryCollect_exists _ _).mp ((h2 s).mp (h s hs)) t ht
    exact ⟨r.2, ((buildTable_ok env l t r).mp hr).2⟩
  · intro h s hs
    rw [h2, tryCollect_exists]
    intro t ht
    obtain ⟨p, hp⟩ := h s hs t ht
    exact ⟨(t.name, p), (buildTable_ok env l t _).mpr ⟨rfl, hp⟩⟩

/-- **C84 (a table without a place).** A table whose storage location is not in the listing, or that names none when
there is no default store, or an Iceberg table without storage location, has no place. -/
theorem C84_no_place (env : Env) (l : Listing) (t : TableObj)
    (h : (∃ n, t.store = some n ∧ ∀ st ∈ l.stores, st.name ≠ n) ∨
      (t.store = none ∧ (env.hasDefault = false ∨ t.format = 1)) ∨ (t.format ≠ 0 ∧ t.format ≠ 1)) :
    ∀ p, ¬ At env l t p := by
  intro p hp
  cases hp with
  | delta st n hf hn hs =>
    obtain ⟨pre, suf, e, hname, _⟩ := hs
    rcases h with ⟨m, hm, hst⟩ | ⟨h, _⟩ | ⟨h, _⟩
    · rw [hn] at hm
      simp only [Option.some.injEq] at hm
      subst hm
      exact hst st (by rw [e]; simp) hname
    · rw [hn] at h; simp at h
    · exact h hf
  | default hf hn hd =>
    rcases h with ⟨m, hm, _⟩ | ⟨_, h | h⟩ | ⟨h, _⟩
    · rw [hn] at hm; simp at hm
    · rw [hd] at h; simp at h
    · rw [hf] at h; simp at h
    · exact h hf
  | iceberg st n m hf hn hs =>
    obtain ⟨pre, suf, e, hname, _⟩ := hs
    rcases h with ⟨m, hm, hst⟩ | ⟨h, _⟩ | ⟨_, h⟩
    · rw [hn] at hm
      simp only [Option.some.injEq] at hm
      subst hm
      exact hst st (by rw [e]; simp) hname
    · rw [hn] at h; simp at h
    · exact h hf

/-- **C84 (sources).** A list sent with the query is used as it is, whatever the name of the database; without any
metastore every statement fails. -/
theorem C84_inline (env : Env) (l : Listing) (catalog catalog' schema table : String) :
    resolve env (.memory l) catalog schema table = resolve env (.memory l) catalog' schema table ∧
    resolve env .empty catalog schema table = .error .noInlineMetastore := ⟨rfl, rfl⟩

/-- **C84 (sources).** A remote metastore is asked for the database of the statement; its answer is used like a list
sent with the query. -/
theorem C84_external (env : Env) (answer : String → Option Listing) (catalog schema table : String) :
    (∀ l, answer catalog = some l →
      resolve env (.external answer) catalog schema table = resolve env (.memory l) catalog schema table) ∧
    (answer catalog = none → resolve env (.external answer) catalog schema table = .error .unavailable) := by
  constructor
  · intro l h
    simp only [resolve, Source.list, h]
  · intro h
    simp only [resolve, Source.list, h]

/-- The metastore of a catalog database: its listing of a database, identifiers written as texts. -/
def repoSource (render : Nat → Text) (rows : List Catalog.ListRow) : Source :=
  .repo ((Catalog.listSchemas rows).map (fun (n, ts) => (n, ts.map (fun (t, u) => (t, render u)))))

/-- **C84 (catalog database).** For every catalog the operations can lead to: if there is a default store, the name of
a table stands for the table in the default store whose path is the identifier of the table of this name in the
catalog, and a name of no table stands for none.  Partial: the schema must not be called `system`. -/
theorem C84_catalog_partial (env : Env) (hd : env.hasDefault = true) (render : Nat → Text) (s : Catalog.Cat) (h : Catalog.WF s)
    (db : String) (rows : List Catalog.ListRow) (hrows : ∀ r, r ∈ rows ↔ r ∈ Catalog.joinedRows s db)
    (hsort : Catalog.RowsSorted rows) (schema table : String) (h1 : schema ≠ "staging") (h2 : schema ≠ "system") :
    ∃ f, resolve env (repoSource render rows) db schema table = .ok (.table f) ∧
      ∀ p, f = some p ↔ ∃ t, Catalog.IsTable s db schema table t ∧ p = .deltaDefault (render t.uuid) := by
  obtain ⟨g1, g2, g3⟩ := Catalog.C36_listing s h db rows hrows hsort
  obtain ⟨l, hl⟩ : ∃ l, (repoSource render rows).list db = .ok l := ⟨_, rfl⟩
  have hsch : ∀ x, x ∈ l.schemas ↔ ∃ n ts, (n, ts) ∈ Catalog.listSchemas rows ∧
      x = ⟨n, ts.map (fun (t, u) => ⟨t, render u, none, 0⟩)⟩ := by
    intro x
    simp only [repoSource, Source.list, Except.ok.injEq] at hl
    subst hl
    simp only [List.map_map, List.mem_map, Function.comp_apply, Prod.exists]
    constructor
    · rintro ⟨n, ts, hm, rfl⟩; exact ⟨n, ts, hm, rfl⟩
    · rintro ⟨n, ts, hm, rfl⟩; exact ⟨n, ts, hm, rfl⟩
  have hnd : (l.schemas.map (·.name)).Nodup := by
    simp only [repoSource, Source.list, Except.ok.injEq] at hl
    subst hl
    simp only [List.map_map]
    exact g1
  obtain ⟨d, hb⟩ : ∃ d, buildCatalog env l = .ok d := by
    rw [C84_builds]
    intro x hx t ht
    obtain ⟨n, ts, _, rfl⟩ := (hsch x).mp hx
    simp only [List.mem_map, Prod.exists] at ht
    obtain ⟨m, u, _, rfl⟩ := ht
    exact ⟨_, .default rfl rfl hd⟩
  obtain ⟨f, hf⟩ : ∃ f, find d schema table = .table f := by unfold find; rw [if_neg h1, if_neg h2]; exact ⟨_, rfl⟩
  refine ⟨f, by simp [resolve, hl, hb, hf], ?_⟩
  intro p
  have key := C84_resolves env l d hb schema table h1 h2 p
  rw [hf] at key
  simp only [Found.table.injEq] at key
  rw [key]
  constructor
  · rintro ⟨x, t, hx, ht, ha⟩
    obtain ⟨hx1, hx2⟩ := (C84_distinct _ _ hnd _ _).mp hx
    obtain ⟨n, ts, hm, rfl⟩ := (hsch x).mp hx1
    simp only at hx2
    subst hx2
    obtain ⟨t1, t2⟩ := g3 _ _ hm
    obtain ⟨pre, suf, e, hn, _⟩ := ht
    have hmem : t ∈ ts.map (fun x => (⟨x.1, render x.2, none, 0⟩ : TableObj)) := by
      have : t ∈ (ts.map (fun (t, u) => (⟨t, render u, none, 0⟩ : TableObj))) := by
        simp only at e; rw [e]; simp
      exact this
    obtain ⟨⟨m, u⟩, hmu, rfl⟩ := List.mem_map.mp hmem
    simp only at hn
    subst hn
    obtain ⟨t', ht', rfl⟩ := (t2 _ _).mp hmu
    exact ⟨t', ht', at_unique ha (.default rfl rfl hd)⟩
  · rintro ⟨t, ht, rfl⟩
    obtain ⟨c, hc⟩ : ∃ c, Catalog.IsSchema s db schema c := by obtain ⟨_, _, c, hc, _⟩ := ht; exact ⟨c, hc⟩
    obtain ⟨ts, hts⟩ := (g2 schema).mpr ⟨c, hc⟩
    obtain ⟨t1, t2⟩ := g3 _ _ hts
    have hmu := (t2 table t.uuid).mpr ⟨t, ht, rfl⟩
    refine ⟨_, ⟨table, render t.uuid, none, 0⟩,
      (C84_distinct _ _ hnd _ _).mpr ⟨(hsch _).mpr ⟨schema, ts, hts, rfl⟩, rfl⟩, ?_, .default rfl rfl hd⟩
    refine (C84_distinct _ _ ?_ _ _).mpr ⟨?_, rfl⟩
    · simp only [List.map_map]
      exact t1
    · simp only [List.mem_map, Prod.exists]
      exact ⟨table, t.uuid, hmu, rfl⟩

/-! ### examples and violations -/

/-- All stores can be built, and there is a default store. -/
def exEnv : Env := ⟨fun _ => true, fun _ _ => true, true, fun _ _ => true⟩

/-- Two schemas with a table `t` each and an Iceberg table. -/
def exListing : Listing :=
  ⟨[⟨"public", [⟨"t", "one".toList, some "s1", 0⟩, ⟨"i", "/m/v1.json".toList, some "s2", 1⟩]⟩, ⟨"other", [⟨"t", "two".toList, none, 0⟩]⟩],
   [⟨"s1", "s3://a".toList, [("region", "eu")]⟩, ⟨"s2", "s3://b/".toList, []⟩]⟩

example : resolve exEnv (.memory exListing) "default" "public" "t" =
      .ok (.table (some (.delta "s3://a".toList [("region", "eu")] "one".toList))) ∧
    resolve exEnv (.memory exListing) "default" "public" "i" = .ok (.table (some (.iceberg "s3://b/m/v1.json".toList []))) ∧
    resolve exEnv (.memory exListing) "default" "other" "t" = .ok (.table (some (.deltaDefault "two".toList))) ∧
    resolve exEnv (.memory exListing) "default" "other" "u" = .ok (.table none) := by decide +kernel

/-- **C84, violated: one bad table.** A table with an unknown format makes all the other tables unavailable. -/
theorem C84_violated_other :
    resolve exEnv (.memory ⟨[⟨"public", [⟨"t", "one".toList, none, 0⟩]⟩], []⟩) "default" "public" "t" =
      .ok (.table (some (.deltaDefault "one".toList))) ∧
    resolve exEnv (.memory ⟨[⟨"public", [⟨"t", "one".toList, none, 0⟩, ⟨"x", [], none, 7⟩]⟩], []⟩) "default" "public" "t" =
      .error (.unrecognizedFormat 7) := by decide +kernel

/-- **C84, violated: schema `system`.** A schema with this name and a table in it can be created (in contrast to
`staging`), but the table can never be read: its name leads to the system tables. -/
theorem C84_violated_system (env : Env) (src : Source) (catalog table : String) (p : Option Place) :
    (Catalog.errOf (Catalog.createTable (Catalog.createSchema (Catalog.createDb {} "default").1 "default" "system").1
      "default" "system" "t" [("a", "int")] 7 0 true).2).isNone = true ∧
    (Catalog.createSchema (Catalog.createDb {} "default").1 "default" "staging").2 =
      .error .usedStagingSchema ∧
    resolve env src catalog "system" table ≠ .ok (.table p) := by
  refine ⟨by decide +kernel, by decide +kernel, ?_⟩
  unfold resolve
  split
  · simp
  · split
    · simp
    · simp [find]

end Seafowl.Meta
