import Verif.Store.Address

/-!
# C123: the address of a table names the directory its files are in
-/
namespace Seafowl.Address

/-! ### specification -/

/-- A part of a path that stands for itself. -/
def Good (s : Text) : Prop := s ≠ [] ∧ '/' ∉ s ∧ s ≠ ['.'] ∧ s ≠ ['.', '.']

/-- Parts with slashes in between. -/
def glue : List Text → Text
  | [] => []
  | [s] => s
  | s :: t :: rest => s ++ '/' :: glue (t :: rest)

/-- The path of a table: parts with slashes in between, none at either end. -/
def Clean (name : Text) (parts : List Text) : Prop := parts ≠ [] ∧ name = glue parts ∧ ∀ s ∈ parts, Good s

/-- A prefix in the configuration: a path that may end with a slash, or nothing. -/
def PrefixOk (p : Text) (parts : List Text) : Prop :=
  (∀ s ∈ parts, Good s) ∧ (p = glue parts ∨ (parts ≠ [] ∧ p = glue parts ++ ['/']))

/-- The address of an endpoint after the host: nothing, or the path to something behind a proxy. -/
def RestOk (rest : Text) (parts : List Text) : Prop :=
  (∀ s ∈ parts, Good s) ∧ rest = parts.flatMap (fun s => '/' :: s)

/-- The address of what the store calls the empty path. -/
inductive Home : Config → Url → Prop where
  | localFs (dir : List Text) : Home (.localFs dir) ⟨"file".toList, [], dir⟩
  | memory : Home .memory ⟨"memory".toList, [], []⟩
  | s3 (bucket : Text) (pre : Option Text) (h : ∀ p ∈ pre, ∃ ps, PrefixOk p ps) :
      Home (.s3 none bucket pre) ⟨"s3".toList, bucket, []⟩
  | s3At (scheme host rest : Text) (parts : List Text) (bucket : Text) (pre : Option Text) (hr : RestOk rest parts)
      (hb : Good bucket) (h : ∀ p ∈ pre, ∃ ps, PrefixOk p ps) :
      Home (.s3 (some (scheme, host, rest)) bucket pre) ⟨scheme, host, parts ++ [bucket]⟩
  | gcs (bucket : Text) (pre : Option Text) (h : ∀ p ∈ pre, ∃ ps, PrefixOk p ps) :
      Home (.gcs bucket pre) ⟨"gs".toList, bucket, []⟩

/-- The directory below an address. -/
def Url.below (u : Url) (dir : List Text) : Url := { u with segs := u.segs ++ dir }

/-! ### lemmas -/

theorem split_ne (t : Text) : split t ≠ [] := by
  cases t with
  | nil => simp [split]
  | cons c cs =>
    unfold split
    split
    · simp
    · split <;> simp

theorem split_noslash {t : Text} (h : '/' ∉ t) : split t = [t] := by
  induction t with
  | nil => rfl
  | cons c cs ih =>
    have h1 : c ≠ '/' := fun e => h (by simp [e])
    have h2 : '/' ∉ cs := fun e => h (by simp [e])
    simp only [split, h1, if_false, ih h2]

theorem split_append (a b : Text) : split (a ++ '/' :: b) = split a ++ split b := by
  induction a with
  | nil => simp [split]
  | cons c cs ih =>
    simp only [List.cons_append]
    by_cases hc : c = '/'
    · simp [split, hc, ih]
    · simp only [split, hc, if_false, ih]
      cases h : split cs with
      | nil => exact absurd h (split_ne cs)
      | cons s r => simp

theorem split_glue {l : List Text} (hne : l ≠ []) (h : ∀ s ∈ l, Good s) : split (glue l) = l := by
  induction l with
  | nil => exact absurd rfl hne
  | cons s r ih =>
    have hs := split_noslash (h s (by simp)).2.1
    cases r with
    | nil => simpa [glue] using hs
    | cons t r =>
      rw [glue, split_append, hs, ih (by simp) (fun x hx => h x (by simp [hx]))]
      rfl

theorem norm_good {l : List Text} (h : ∀ s ∈ l, Good s) (acc : List Text) : norm acc l = acc ++ l := by
  induction l generalizing acc with
  | nil => simp [norm]
  | cons s r ih =>
    obtain ⟨_, _, h3, h4⟩ := h s (by simp)
    cases r with
    | nil => simp [norm, h3, h4]
    | cons t r =>
      rw [norm, if_neg h4, if_neg h3, ih (fun x hx => h x (by simp [hx]))]
      simp

theorem norm_good_slash {l : List Text} (h : ∀ s ∈ l, Good s) (acc : List Text) :
    norm acc (l ++ [[]]) = acc ++ (l ++ [[]]) := by
  induction l generalizing acc with
  | nil => simp [norm]
  | cons s r ih =>
    obtain ⟨_, _, h3, h4⟩ := h s (by simp)
    cases r with
    | nil => simp [norm, h3, h4]
    | cons t r =>
      have := ih (fun x hx => h x (by simp [hx])) (acc ++ [s])
      simp only [List.cons_append] at this ⊢
      rw [norm, if_neg h4, if_neg h3, this]
      simp

theorem pathFrom_good {t : Text} {l : List Text} (e : split t = l ∨ split t = l ++ [[]]) (h : ∀ s ∈ l, Good s) :
    pathFrom t = l := by
  have hf : l.filter (fun s => decide (s ≠ [])) = l := by
    rw [List.filter_eq_self]
    intro s hs
    simpa using (h s hs).1
  have hm : l.map part = l := by
    have : ∀ s ∈ l, part s = s := by
      intro s hs
      simp [part, (h s hs).2.2.1, (h s hs).2.2.2]
    rw [List.map_congr_left this]
    simp
  unfold pathFrom
  rcases e with e | e
  · rw [e, hf, hm]
  · rw [e, List.filter_append, hf]
    simp [hm]

theorem split_prefix {p : Text} {ps : List Text} (h : PrefixOk p ps) :
    (split p = ps ∧ ps ≠ []) ∨ split p = ps ++ [[]] := by
  obtain ⟨h1, h2 | ⟨h2, h3⟩⟩ := h
  · subst h2
    cases ps with
    | nil => right; rfl
    | cons s r => left; exact ⟨split_glue (by simp) h1, by simp⟩
  · right
    rw [h3, split_append, split_glue h2 h1]
    rfl

theorem split_rest {rest : Text} {es : List Text} (h : RestOk rest es) (b : Text) :
    split ((rest ++ '/' :: b).tail) = es ++ split b := by
  obtain ⟨h1, h2⟩ := h
  subst h2
  induction es with
  | nil => rfl
  | cons s r ih =>
    have ih := ih (fun x hx => h1 x (by simp [hx]))
    have hs := split_noslash (h1 s (by simp)).2.1
    cases r with
    | nil => simp [split_append, hs]
    | cons t r =>
      simp only [List.flatMap_cons, List.cons_append, List.tail_cons, List.append_assoc] at ih ⊢
      rw [split_append, hs]
      simp only [List.cons_append, List.nil_append, List.cons.injEq, true_and]
      exact ih

theorem withSlash_good {u : Url} {l : List Text} (h : ∀ s ∈ l, Good s) (e : u.segs = l ∨ u.segs = l ++ [[]]) :
    withSlash u = { u with segs := l ++ [[]] } := by
  unfold withSlash
  rcases e with e | e
  · have : ¬ u.segs.getLast? = some [] := by
      rw [e]
      intro hl
      exact (h [] (List.mem_of_getLast? hl)).1 rfl
    rw [if_neg this, e]
  · rw [if_pos (by rw [e]; simp)]
    cases u
    simp_all

/-- The prefix of a configuration. -/
def pre? : Config → Option Text
  | .s3 _ _ p => p
  | .gcs _ p => p
  | _ => none

/-- Root and directory, in terms of the parts of the prefix. -/
theorem root_parts {c : Config} {u : Url} (h : Home c u) :
    ∃ ps, (∀ s ∈ ps, Good s) ∧ rootUri c = { u with segs := u.segs ++ ps ++ [[]] } ∧
      ∀ name, split name ≠ [] → ∃ t, tablePrefix c name = pathFrom t ∧
        (split t = ps ++ split name ∨ split t = ps ++ [] :: split name) := by
  cases h with
  | localFs dir =>
    refine ⟨[], by simp, ?_, fun name _ => ⟨name, rfl, Or.inl (by simp)⟩⟩
    simp [rootUri, baseUri, withSlash]
  | memory =>
    refine ⟨[], by simp, ?_, fun name _ => ⟨name, rfl, Or.inl (by simp)⟩⟩
    simp [rootUri, baseUri, withSlash]
  | s3 bucket pre h =>
    cases pre with
    | none =>
      refine ⟨[], by simp, ?_, fun name _ => ⟨name, rfl, Or.inl (by simp)⟩⟩
      simp [rootUri, baseUri, withSlash, withPrefix, parse]
    | some p =>
      obtain ⟨ps, hp⟩ := h p rfl
      refine ⟨ps, hp.1, ?_, fun name _ => ⟨p ++ '/' :: name, rfl, ?_⟩⟩
      · unfold rootUri
        rw [withSlash_good hp.1]
        · simp [baseUri, withPrefix, parse]
        · rcases split_prefix hp with ⟨e, _⟩ | e
          · left; simp [baseUri, withPrefix, parse, e, norm_good hp.1]
          · right; simp [baseUri, withPrefix, parse, e, norm_good_slash hp.1]
      · rcases split_prefix hp with ⟨e, _⟩ | e
        · left; rw [split_append, e]
        · right; rw [split_append, e]; simp
  | gcs bucket pre h =>
    cases pre with
    | none =>
      refine ⟨[], by simp, ?_, fun name _ => ⟨name, rfl, Or.inl (by simp)⟩⟩
      simp [rootUri, baseUri, withSlash, withPrefix, parse]
    | some p =>
      obtain ⟨ps, hp⟩ := h p rfl
      refine ⟨ps, hp.1, ?_, fun name _ => ⟨p ++ '/' :: name, rfl, ?_⟩⟩
      · unfold rootUri
        rw [withSlash_good hp.1]
        · simp [baseUri, withPrefix, parse]
        · rcases split_prefix hp with ⟨e, _⟩ | e
          · left; simp [baseUri, withPrefix, parse, e, norm_good hp.1]
          · right; simp [baseUri, withPrefix, parse, e, norm_good_slash hp.1]
      · rcases split_prefix hp with ⟨e, _⟩ | e
        · left; rw [split_append, e]
        · right; rw [split_append, e]; simp
  | s3At scheme host rest parts bucket pre hr hb h =>
    have hpb : ∀ s ∈ parts ++ [bucket], Good s := by
      intro s hs
      rcases List.mem_append.1 hs with hs | hs
      · exact hr.1 s hs
      · simp at hs; exact hs ▸ hb
    have hparse : ∀ t, parse scheme host (rest ++ '/' :: t) = ⟨scheme, host, norm [] (parts ++ split t)⟩ := by
      intro t
      have := split_rest hr t
      cases hx : rest ++ '/' :: t with
      | nil => simp at hx
      | cons a b => rw [hx] at this; simp [parse, ← this]
    cases pre with
    | none =>
      refine ⟨[], by simp, ?_, fun name _ => ⟨name, rfl, Or.inl (by simp)⟩⟩
      unfold rootUri
      rw [withSlash_good hpb]
      · simp [baseUri, withPrefix, hparse]
      · left; simp [baseUri, withPrefix, hparse, split_noslash hb.2.1, norm_good hpb]
    | some p =>
      obtain ⟨ps, hp⟩ := h p rfl
      have hall : ∀ s ∈ parts ++ [bucket] ++ ps, Good s := by
        intro s hs
        rcases List.mem_append.1 hs with hs | hs
        · exact hpb s hs
        · exact hp.1 s hs
      refine ⟨ps, hp.1, ?_, fun name _ => ⟨p ++ '/' :: name, rfl, ?_⟩⟩
      · have e0 : baseUri (.s3 (some (scheme, host, rest)) bucket (some p)) =
            ⟨scheme, host, norm [] (parts ++ [bucket] ++ split p)⟩ := by
          simp only [baseUri, withPrefix, List.append_assoc, List.cons_append]
          rw [hparse, split_append, split_noslash hb.2.1]
          rfl
        unfold rootUri
        rw [withSlash_good hall]
        · rw [e0]
        · rw [e0]
          rcases split_prefix hp with ⟨e, _⟩ | e
          · left; rw [e, norm_good hall]; rfl
          · right
            rw [e, ← List.append_assoc, norm_good_slash hall]; rfl
      · rcases split_prefix hp with ⟨e, _⟩ | e
        · left; rw [split_append, e]
        · right; rw [split_append, e]; simp

theorem pathFrom_prefix {t : Text} {ps l : List Text} (h : split t = ps ++ l ∨ split t = ps ++ [] :: l)
    (hp : ∀ s ∈ ps, Good s) : pathFrom t = ps ++ (l.filter (fun s => decide (s ≠ []))).map part := by
  have hf : ps.filter (fun s => decide (s ≠ [])) = ps := by
    rw [List.filter_eq_self]
    intro s hs
    simpa using (hp s hs).1
  have hm : ps.map part = ps := by
    have : ∀ s ∈ ps, part s = s := by
      intro s hs
      simp [part, (hp s hs).2.2.1, (hp s hs).2.2.2]
    rw [List.map_congr_left this]
    simp
  unfold pathFrom
  rcases h with h | h
  · rw [h, List.filter_append, List.map_append, hf, hm]
  · rw [h, List.filter_append, List.map_append, hf, hm]
    simp

theorem join_rel {base : Url} {name : Text} {s : Text} {r : List Text} (h : split name = s :: r) (hs : s ≠ []) :
    join base name = { base with segs := norm base.segs.dropLast (split name) } := by
  cases name with
  | nil => simp [split] at h; exact absurd h.1 hs
  | cons c cs =>
    by_cases hc : c = '/'
    · subst hc; simp [split] at h; exact absurd h.1 hs
    · unfold join
      split
      · simp_all
      · rename_i heq; simp only [List.cons.injEq] at heq; exact absurd heq.1 hc
      · rfl

/-- Directory and address of a table. -/
theorem logStore_parts {c : Config} {u : Url} (h : Home c u) :
    ∃ ps, (∀ s ∈ ps, Good s) ∧
      (∀ name parts, Clean name parts → logStore c name = (ps ++ parts, u.below (ps ++ parts))) ∧
      (∀ name, tablePrefix c name = ps ++ pathFrom name) ∧
      (∀ name s r, split name = s :: r → s ≠ [] →
        (logStore c name).2 = { u with segs := norm (u.segs ++ ps) (split name) }) ∧
      (rootUri c).segs = u.segs ++ ps ++ [[]] ∧ (rootUri c).scheme = u.scheme ∧ (rootUri c).host = u.host := by
  obtain ⟨ps, h1, h2, h3⟩ := root_parts h
  have htp : ∀ name, tablePrefix c name = ps ++ pathFrom name := by
    intro name
    obtain ⟨t, e, hs⟩ := h3 name (split_ne name)
    rw [e, pathFrom_prefix hs h1]
    rfl
  have hj : ∀ name s r, split name = s :: r → s ≠ [] →
        (logStore c name).2 = { u with segs := norm (u.segs ++ ps) (split name) } := by
    intro name s r hs hne
    unfold logStore
    rw [join_rel hs hne, h2]
    simp
  refine ⟨ps, h1, ?_, htp, hj, by rw [h2], by rw [h2], by rw [h2]⟩
  intro name parts ⟨c1, c2, c3⟩
  have hs : split name = parts := by rw [c2, split_glue c1 c3]
  obtain ⟨s, r, rfl⟩ : ∃ s r, parts = s :: r := by
    cases parts with
    | nil => exact absurd rfl c1
    | cons s r => exact ⟨s, r, rfl⟩
  have e2 := hj name s r hs (c3 s (by simp)).1
  have e1 : (logStore c name).1 = ps ++ (s :: r) := by
    simp only [logStore]
    rw [htp, pathFrom_good (Or.inl hs) c3]
  refine Prod.ext e1 ?_
  rw [e2, hs, norm_good c3]
  simp [Url.below]

/-! ### theorems -/

/-- **C123, partial**: the URI of a table in the internal store is the address of the store followed by the directory of
the table in it, for every kind of store, with or without prefix; and where files are moved instead of uploaded, they are
moved to that directory.  (Missing: paths with `.`, `..`, or slashes at either end, and such prefixes; see the
violations.) -/
theorem C123_address_partial {c : Config} {u : Url} (h : Home c u) {name : Text} {parts : List Text}
    (hn : Clean name parts) :
    (logStore c name).2 = u.below (logStore c name).1 ∧
    (∃ pre, (logStore c name).1 = pre ++ parts) ∧
    (∀ d, localTableDir c name = some d → ⟨"file".toList, [], d⟩ = (logStore c name).2) := by
  obtain ⟨ps, h1, h2, h3, h4⟩ := logStore_parts h
  have e := h2 name parts hn
  refine ⟨by rw [e], ⟨ps, by rw [e]⟩, ?_⟩
  intro d hd
  have hsp : split name = parts := by rw [hn.2.1, split_glue hn.1 hn.2.2]
  cases h with
  | localFs dir =>
    simp only [localTableDir, Option.some.injEq] at hd
    have ht : (logStore (.localFs dir) name).1 = parts := by
      simp only [logStore, tablePrefix]
      exact pathFrom_good (Or.inl hsp) hn.2.2
    have : (logStore (.localFs dir) name).2 = Url.below ⟨"file".toList, [], dir⟩ (logStore (.localFs dir) name).1 := by
      rw [e]
    rw [this, ht, ← hd, hsp]
    rfl
  | memory => cases hd
  | s3 => cases hd
  | s3At => cases hd
  | gcs => cases hd

theorem glue_inj {a b : List Text} (ha : a ≠ []) (hb : b ≠ []) (ga : ∀ s ∈ a, Good s) (gb : ∀ s ∈ b, Good s)
    (h : glue a = glue b) : a = b := by
  rw [← split_glue ha ga, h, split_glue hb gb]

/-- **C123, partial**: two tables have the same URI exactly if they have the same directory, which is only the case if
they have the same path.  (Missing: as above.) -/
theorem C123_same_partial {c : Config} {u : Url} (h : Home c u) {a b : Text} {as bs : List Text} (ha : Clean a as)
    (hb : Clean b bs) :
    ((logStore c a).2 = (logStore c b).2 ↔ a = b) ∧ ((logStore c a).1 = (logStore c b).1 ↔ a = b) := by
  obtain ⟨ps, h1, h2, _⟩ := logStore_parts h
  have ea := h2 a as ha
  have eb := h2 b bs hb
  have key : as = bs → a = b := fun e => by rw [ha.2.1, hb.2.1, e]
  constructor
  · refine ⟨fun e => key ?_, fun e => by rw [e]⟩
    rw [ea, eb] at e
    simp only [Url.below, Url.mk.injEq, true_and] at e
    simpa using e
  · refine ⟨fun e => key ?_, fun e => by rw [e]⟩
    rw [ea, eb] at e
    simpa using e

/-- The text of a UUID: 36 characters, digits, letters from a to f, and hyphens. -/
def Uuid (t : Text) : Prop :=
  t.length = 36 ∧ ∀ x ∈ t, x ∈ ['0', '1', '2', '3', '4', '5', '6', '7', '8', '9', 'a', 'b', 'c', 'd', 'e', 'f', '-']

theorem uuid_clean {t : Text} (h : Uuid t) : Clean t [t] := by
  obtain ⟨h1, h2⟩ := h
  refine ⟨by simp, rfl, ?_⟩
  intro s hs
  simp only [List.mem_singleton] at hs
  subst hs
  refine ⟨?_, fun hx => absurd (h2 _ hx) (by decide), ?_, ?_⟩ <;>
  · rintro rfl
    simp at h1

/-- **C123**: no file belongs to two of the tables Seafowl creates, whose paths are UUIDs; and the listing of one of them,
by which it is deleted, contains no file of another. -/
theorem C123_disjoint {c : Config} {u : Url} (h : Home c u) {a b : Text} (ha : Uuid a) (hb : Uuid b) (hne : a ≠ b)
    (file : List Text) : ¬ ((logStore c a).1 <+: file ∧ (logStore c b).1 <+: file) := by
  obtain ⟨ps, h1, h2, _⟩ := logStore_parts h
  rw [h2 a [a] (uuid_clean ha), h2 b [b] (uuid_clean hb)]
  rintro ⟨⟨x, rfl⟩, ⟨y, hy⟩⟩
  simp only [List.append_assoc, List.append_cancel_left_eq, List.cons_append, List.nil_append, List.cons.injEq] at hy
  exact hne hy.1.symm

/-! ### queues -/

/-- The queues are those of tables with clean paths. -/
def Ours (c : Config) (qs : List Queue) : Prop :=
  qs.Pairwise (fun p q => p.uri ≠ q.uri) ∧ ∀ q ∈ qs, ∃ name parts, Clean name parts ∧ q.uri = (logStore c name).2 ∧
    q.dir = (logStore c name).1

theorem enqueue_mem {c : Config} {name : Text} {x : Nat} {qs : List Queue} {q : Queue} (h : q ∈ enqueue c name x qs) :
    (∃ p ∈ qs, q.uri = p.uri ∧ q.dir = p.dir) ∨ (q.uri = (logStore c name).2 ∧ q.dir = (logStore c name).1) := by
  induction qs with
  | nil => simp [enqueue] at h; right; simp [h]
  | cons p ps ih =>
    simp only [enqueue] at h
    split at h
    · rcases List.mem_cons.1 h with h | h
      · left; exact ⟨p, by simp, by simp [h], by simp [h]⟩
      · left; exact ⟨q, by simp [h], rfl, rfl⟩
    · rcases List.mem_cons.1 h with h | h
      · left; exact ⟨p, by simp, by simp [h], by simp [h]⟩
      · rcases ih h with ⟨r, hr, h1⟩ | h1
        · left; exact ⟨r, by simp [hr], h1⟩
        · right; exact h1

theorem enqueue_ours {c : Config} {name : Text} {parts : List Text} (hn : Clean name parts)
    (x : Nat) {qs : List Queue} (h : Ours c qs) : Ours c (enqueue c name x qs) := by
  constructor
  · have := h.1
    clear h
    induction qs with
    | nil => simp [enqueue]
    | cons p ps ih =>
      rw [List.pairwise_cons] at this
      simp only [enqueue]
      split
      · rw [List.pairwise_cons]
        exact ⟨this.1, this.2⟩
      · next hne =>
        rw [List.pairwise_cons]
        refine ⟨?_, ih this.2⟩
        intro q hq
        rcases enqueue_mem hq with ⟨r, hr, h1, _⟩ | ⟨h1, _⟩
        · rw [h1]; exact this.1 r hr
        · rw [h1]; exact hne
  · intro q hq
    rcases enqueue_mem hq with ⟨r, hr, h1, h2⟩ | h1
    · obtain ⟨n, ps, hc, e1, e2⟩ := h.2 r hr
      exact ⟨n, ps, hc, by rw [h1, e1], by rw [h2, e2]⟩
    · exact ⟨name, parts, hn, h1⟩

theorem enqueue_written {c : Config} {u : Url} (hu : Home c u) {name : Text} {parts : List Text} (hn : Clean name parts)
    (x : Nat) {qs : List Queue} (h : Ours c qs) {other : Text} {ops : List Text} (ho : Clean other ops) :
    written (enqueue c name x qs) (logStore c other).1 =
      written qs (logStore c other).1 ++ if name = other then [x] else [] := by
  induction qs with
  | nil =>
    by_cases hx : name = other
    · subst hx; simp [enqueue, written]
    · have : ¬ (logStore c name).1 = (logStore c other).1 := fun e => hx ((C123_same_partial hu hn ho).2.1 e)
      simp [enqueue, written, this, hx]
  | cons p ps ih =>
    have hps : Ours c ps := ⟨(List.pairwise_cons.1 h.1).2, fun q hq => h.2 q (by simp [hq])⟩
    have ih := ih hps
    obtain ⟨n, pt, hc, e1, e2⟩ := h.2 p (by simp)
    simp only [enqueue]
    split
    · next he =>
      rw [e1] at he
      have hnn := (C123_same_partial hu hc hn).1.1 he
      subst hnn
      by_cases hx : n = other
      · subst hx
        have hrest : ps.filter (fun q => decide (q.dir = (logStore c n).1)) = [] := by
          rw [List.filter_eq_nil_iff]
          intro q hq
          obtain ⟨m, mt, hm, f1, f2⟩ := hps.2 q hq
          simp only [decide_eq_true_eq]
          intro hd
          rw [f2] at hd
          have hmn := (C123_same_partial hu hm hc).2.1 hd
          subst hmn
          exact (List.pairwise_cons.1 h.1).1 q hq (by rw [e1, f1])
        simp only [written, List.filter_cons, e2, decide_true, if_true, hrest]
        simp
      · have hd : ¬ p.dir = (logStore c other).1 := by
          rw [e2]; exact fun e => hx ((C123_same_partial hu hc ho).2.1 e)
        simp [written, hd, hx]
    · simp only [written, List.filter_cons] at ih ⊢
      split
      · simp only [List.flatMap_cons, List.append_assoc]
        rw [ih]
      · exact ih

/-- **C123, partial**: changes of any tables, in any order, reach the directory of their own table, in their order, and no
other.  (Missing: paths that are not clean; see `C123_violated_dots`.) -/
theorem C123_queues_partial {c : Config} {u : Url} (hu : Home c u) (xs : List (Text × Nat))
    (hx : ∀ x ∈ xs, ∃ parts, Clean x.1 parts) {name : Text} {parts : List Text} (hn : Clean name parts) :
    written (enqueueAll c [] xs) (logStore c name).1 = (xs.filter (fun x => decide (x.1 = name))).map (·.2) := by
  suffices H : ∀ qs, Ours c qs →
      written (enqueueAll c qs xs) (logStore c name).1 =
        written qs (logStore c name).1 ++ (xs.filter (fun x => decide (x.1 = name))).map (·.2) by
    rw [H [] ⟨by simp, by simp⟩]
    simp [written]
  induction xs with
  | nil => intro qs _; simp [enqueueAll]
  | cons x xs ih =>
    intro qs hq
    obtain ⟨pt, hc⟩ := hx x (by simp)
    have := ih (fun y hy => hx y (by simp [hy])) (enqueue c x.1 x.2 qs) (enqueue_ours hc x.2 hq)
    simp only [enqueueAll, List.foldl_cons] at this ⊢
    rw [this, enqueue_written hu hc x.2 hq hn]
    by_cases e : x.1 = name <;> simp [e]

/-! ### violations -/

/-- **C123 violated**: the path `a/../t` has the URI of `t` but a directory of its own, whatever the store.  Changes of `t`
that come while there are changes of `a/../t` are written to that other directory: none of them reaches `t`. -/
theorem C123_violated_dots {c : Config} {u : Url} (hu : Home c u) {a t : Text} (ha : Good a) (ht : Good t) (x y : Nat) :
    let odd := a ++ '/' :: '.' :: '.' :: '/' :: t
    (logStore c odd).2 = (logStore c t).2 ∧ (logStore c odd).1 ≠ (logStore c t).1 ∧
    written (enqueueAll c [] [(odd, x), (t, y)]) (logStore c t).1 = [] ∧
    written (enqueueAll c [] [(odd, x), (t, y)]) (logStore c odd).1 = [x, y] := by
  intro odd
  obtain ⟨ps, h1, h2, h3, h4, _⟩ := logStore_parts hu
  have hso : split odd = [a, ['.', '.'], t] := by
    show split (a ++ '/' :: (['.', '.'] ++ '/' :: t)) = _
    rw [split_append, split_append, split_noslash ha.2.1, split_noslash ht.2.1]
    rfl
  have hst : split t = [t] := split_noslash ht.2.1
  have e1 : (logStore c odd).2 = (logStore c t).2 := by
    rw [h4 odd a _ hso ha.1, h4 t t _ hst ht.1, hso, hst]
    simp [norm, ha.2.2.1, ha.2.2.2]
  have e2 : (logStore c odd).1 ≠ (logStore c t).1 := by
    simp only [logStore]
    rw [h3, h3]
    simp [pathFrom, hso, hst, ha.1, ht.1]
  refine ⟨e1, e2, ?_, ?_⟩
  · simp [enqueueAll, enqueue, e1, written, e2]
  · simp [enqueueAll, enqueue, e1, written]

/-- **C123 violated**: the path `a/..` has the address of the whole store, whatever the store; its directory is one below that
of `a`, with a name that is made up of escapes. -/
theorem C123_violated_up {c : Config} {u : Url} (hu : Home c u) {a : Text} (ha : Good a) :
    let odd := a ++ ['/', '.', '.']
    (logStore c odd).2 = rootUri c ∧ (logStore c odd).1 = (logStore c a).1 ++ [['%', '2', 'E', '%', '2', 'E']] := by
  intro odd
  obtain ⟨ps, h1, h2, h3, h4, h5, h6, h7⟩ := logStore_parts hu
  have hsa : split a = [a] := split_noslash ha.2.1
  have hso : split odd = [a, ['.', '.']] := by
    show split (a ++ '/' :: ['.', '.']) = _
    rw [split_append, hsa]
    rfl
  constructor
  · rw [h4 odd a _ hso ha.1, hso]
    have e : norm (u.segs ++ ps) [a, ['.', '.']] = (rootUri c).segs := by
      simp [norm, ha.2.2.1, ha.2.2.2, h5]
    rw [e, ← h6, ← h7]
  · simp only [logStore]
    rw [h3, h3]
    simp [pathFrom, hso, hsa, ha.1, part, ha.2.2.1, ha.2.2.2]

/-- **C123 violated**: `t` and `t/` have the same directory but different URIs: the changes of one table are in two
queues. -/
theorem C123_violated_slash {c : Config} {u : Url} (hu : Home c u) {t : Text} (ht : Good t) (x y : Nat) :
    (logStore c (t ++ ['/'])).1 = (logStore c t).1 ∧ (logStore c (t ++ ['/'])).2 ≠ (logStore c t).2 ∧
    (enqueueAll c [] [(t, x), (t ++ ['/'], y)]).length = 2 := by
  obtain ⟨ps, h1, h2, h3, h4, _⟩ := logStore_parts hu
  have hst : split t = [t] := split_noslash ht.2.1
  have hso : split (t ++ ['/']) = [t, []] := by rw [split_append, hst]; rfl
  have hg : ∀ s ∈ [t], Good s := by simpa using ht
  have e2 : (logStore c (t ++ ['/'])).2 ≠ (logStore c t).2 := by
    rw [h4 _ t _ hso ht.1, h4 t t _ hst ht.1, hso, hst]
    simp [norm, ht.2.2.1, ht.2.2.2]
  refine ⟨?_, e2, ?_⟩
  · simp only [logStore]
    rw [h3, h3, pathFrom_good (Or.inl hst) hg, pathFrom_good (Or.inr hso) hg]
  · have e3 : ¬ (logStore c t).2 = (logStore c (t ++ ['/'])).2 := fun e => e2 e.symm
    simp [enqueueAll, enqueue, e3]

/-- **C123 violated**: a path that begins with a slash leaves the prefix in the URI, but not in the store: the URI is that
of something else in the bucket. -/
theorem C123_violated_absolute {p : Text} {ps : List Text} (hp : PrefixOk p ps) {b t : Text} (ht : Good t) :
    logStore (.s3 none b (some p)) ('/' :: t) = (ps ++ [t], ⟨"s3".toList, b, [t]⟩) := by
  obtain ⟨qs, h1, h2, h3, h4, h5, h6, h7⟩ := logStore_parts (Home.s3 b (some p) (fun q hq => by
    cases hq; exact ⟨ps, hp⟩))
  have hst : split t = [t] := split_noslash ht.2.1
  have hg : ∀ s ∈ [t], Good s := by simpa using ht
  have hst' : split ('/' :: t) = [[], t] := by simp [split, hst]
  refine Prod.ext ?_ ?_
  · simp only [logStore, tablePrefix]
    have : split (p ++ '/' :: '/' :: t) = split p ++ [[], t] := by rw [split_append, hst']
    rcases split_prefix hp with ⟨e, _⟩ | e
    · rw [pathFrom_prefix (ps := ps) (l := [t]) (Or.inr (by rw [this, e])) hp.1]
      simp [ht.1, part, ht.2.2.1, ht.2.2.2]
    · rw [pathFrom_prefix (ps := ps) (l := [[], t]) (Or.inr (by rw [this, e]; simp)) hp.1]
      simp [ht.1, part, ht.2.2.1, ht.2.2.2]
  · simp only [logStore, join, hst, norm_good hg]
    cases hr : rootUri (.s3 none b (some p)) with
    | mk a b' c =>
      rw [hr] at h6 h7
      simp only at h6 h7
      simp [h6, h7]

/-- **C123 violated**: so does a prefix that begins with a slash, and the URI of an endpoint that ends with one. -/
theorem C123_violated_prefix :
    logStore (.s3 none "b".toList (some "/p".toList)) "t".toList =
      (["p".toList, "t".toList], ⟨"s3".toList, "b".toList, [[], "p".toList, "t".toList]⟩) ∧
    logStore (.s3 (some ("http".toList, "h".toList, "/".toList)) "b".toList none) "t".toList =
      (["t".toList], ⟨"http".toList, "h".toList, [[], "b".toList, "t".toList]⟩) := by
  decide +kernel

theorem norm_gap {l : List Text} (h : ∀ s ∈ l, Good s) (hne : l ≠ []) (acc : List Text) : norm acc ([] :: l) = acc ++ [] :: l := by
  cases l with
  | nil => exact absurd rfl hne
  | cons s r =>
    simp only [norm]
    rw [if_neg (by simp), if_neg (by simp), norm_good h]
    simp

theorem norm_mid {a : List Text} (ha : ∀ s ∈ a, Good s) {l : List Text} (hl : l ≠ []) : ∀ acc, norm acc (a ++ l) = norm (acc ++ a) l := by
  induction a with
  | nil => intro acc; simp
  | cons s r ih =>
    intro acc
    obtain ⟨_, _, h3, h4⟩ := ha s (by simp)
    have : ∃ t q, r ++ l = t :: q := by
      cases hrl : r ++ l with
      | nil => simp at hrl; exact absurd hrl.2 hl
      | cons t q => exact ⟨t, q, rfl⟩
    obtain ⟨t, q, e⟩ := this
    simp only [List.cons_append]
    rw [e]
    simp only [norm, h3, h4, if_false]
    rw [← e, ih (fun x hx => ha x (by simp [hx]))]
    simp

/-- **C123 violated, always**: with a prefix that begins with a slash the URI of every table has a directory with an empty name,
which the directory in the store has not. -/
theorem C123_violated_prefix_always {ps : List Text} (hps : ∀ s ∈ ps, Good s) (hne : ps ≠ []) (b : Text) {name : Text}
    {parts : List Text} (hn : Clean name parts) :
    logStore (.s3 none b (some ('/' :: glue ps))) name = (ps ++ parts, ⟨"s3".toList, b, [] :: (ps ++ parts)⟩) ∧
    logStore (.gcs b (some ('/' :: glue ps))) name = (ps ++ parts, ⟨"gs".toList, b, [] :: (ps ++ parts)⟩) := by
  have hsn : split name = parts := by rw [hn.2.1, split_glue hn.1 hn.2.2]
  have hsp : split ('/' :: glue ps) = [] :: ps := by simp [split, split_glue hne hps]
  have hpath : pathFrom ('/' :: glue ps ++ '/' :: name) = ps ++ parts := by
    have : split ('/' :: glue ps ++ '/' :: name) = [] :: (ps ++ parts) := by rw [split_append, hsp, hsn]; rfl
    have h0 : ((ps ++ parts).filter (fun s => decide (s ≠ []))) = ps ++ parts := by
      rw [List.filter_eq_self]
      intro s hs
      rcases List.mem_append.1 hs with hs | hs
      · simpa using (hps s hs).1
      · simpa using (hn.2.2 s hs).1
    have h1 : (ps ++ parts).map part = ps ++ parts := by
      conv => rhs; rw [← List.map_id (ps ++ parts)]
      apply List.map_congr_left
      intro s hs
      have hg : Good s := by
        rcases List.mem_append.1 hs with hs | hs
        · exact hps s hs
        · exact hn.2.2 s hs
      simp [part, hg.2.2.1, hg.2.2.2]
    unfold pathFrom
    rw [this, List.filter_cons, if_neg (by simp), h0, h1]
  obtain ⟨s, r, hsr⟩ : ∃ s r, parts = s :: r := by
    cases hp : parts with
    | nil => exact absurd hp hn.1
    | cons s r => exact ⟨s, r, rfl⟩
  have hroot : ∀ sch : Text, withSlash (parse sch b ('/' :: '/' :: glue ps)) = ⟨sch, b, [] :: ps ++ [[]]⟩ := by
    intro sch
    simp only [parse, hsp, norm_gap hps hne, List.nil_append]
    unfold withSlash
    have hl : ([] :: ps).getLast? ≠ some [] := by
      intro h
      have : ps.getLast? = some [] := by
        cases hps' : ps with
        | nil => exact absurd hps' hne
        | cons a l => rw [hps'] at h; simpa using h
      exact (hps _ (List.mem_of_getLast? this)).1 rfl
    simp only [if_neg hl]
  have hjoin : ∀ sch : Text, join ⟨sch, b, [] :: ps ++ [[]]⟩ name = ⟨sch, b, [] :: (ps ++ parts)⟩ := by
    intro sch
    rw [join_rel (hsn.trans hsr) (hn.2.2 s (by simp [hsr])).1, hsn, norm_good hn.2.2]
    have : ([] :: ps ++ [[]] : List Text).dropLast = [] :: ps := List.dropLast_concat
    simp only [this]
    rfl
  constructor
  · refine Prod.ext (by simpa only [logStore, tablePrefix] using hpath) ?_
    show join (withSlash (parse _ b ('/' :: '/' :: glue ps))) name = _
    rw [hroot, hjoin]
    rfl
  · refine Prod.ext (by simpa only [logStore, tablePrefix] using hpath) ?_
    show join (withSlash (parse _ b ('/' :: '/' :: glue ps))) name = _
    rw [hroot, hjoin]
    rfl

/-- **C123 violated, always**: so it has with an endpoint that ends with a slash. -/
theorem C123_violated_endpoint_always {rest : Text} {es : List Text} (hr : RestOk rest es) (sch host : Text) {b : Text} (hb : Good b)
    {name : Text} {parts : List Text} (hn : Clean name parts) :
    logStore (.s3 (some (sch, host, rest ++ ['/'])) b none) name = (parts, ⟨sch, host, es ++ [] :: b :: parts⟩) := by
  have hsn : split name = parts := by rw [hn.2.1, split_glue hn.1 hn.2.2]
  obtain ⟨s, r, hsr⟩ : ∃ s r, parts = s :: r := by
    cases hp : parts with
    | nil => exact absurd hp hn.1
    | cons s r => exact ⟨s, r, rfl⟩
  have hparse : parse sch host (rest ++ ['/'] ++ '/' :: b) = ⟨sch, host, es ++ [] :: [b]⟩ := by
    have hs := split_rest hr ('/' :: b)
    have e : rest ++ ['/'] ++ '/' :: b = rest ++ '/' :: '/' :: b := by simp
    rw [e]
    cases hx : rest ++ '/' :: '/' :: b with
    | nil => simp at hx
    | cons c cs =>
      rw [hx] at hs
      simp only [List.tail_cons] at hs
      simp only [parse, hs]
      have h2 : split ('/' :: b) = [[], b] := by simp [split, split_noslash hb.2.1]
      rw [h2, norm_mid hr.1 (by simp), norm_gap (by simpa using hb) (by simp)]
      simp
  refine Prod.ext ?_ ?_
  · simp only [logStore, tablePrefix]
    exact pathFrom_good (Or.inl hsn) hn.2.2
  · have hroot : rootUri (.s3 (some (sch, host, rest ++ ['/'])) b none) = ⟨sch, host, es ++ [[], b] ++ [[]]⟩ := by
      unfold rootUri baseUri withPrefix
      simp only
      rw [hparse]
      unfold withSlash
      have hl : (es ++ [[], b]).getLast? ≠ some [] := by
        simp [hb.1]
      simp only [if_neg hl]
    simp only [logStore, hroot]
    rw [join_rel (hsn.trans hsr) (hn.2.2 s (by simp [hsr])).1, hsn, norm_good hn.2.2]
    simp

/-- Their hypotheses: the first ones are those of `C123_violated_prefix`. -/
example : Good "p".toList ∧ Clean "t".toList ["t".toList] ∧ RestOk [] [] := by
  refine ⟨by simp [Good], ⟨by simp, rfl, ?_⟩, by simp [RestOk]⟩
  intro s hs
  simp only [List.mem_singleton] at hs
  subst hs
  simp [Good]

/-! ### tables with a location of their own -/

/-- What an address in a bucket stands for: the bucket and the key. -/
def place (st : Style) (u : Url) : Text × List Text :=
  match st with
  | .hostIsBucket => (u.host, u.segs)
  | .pathHasBucket => (u.segs.headD [], u.segs.tail)

/-- **C123, partial**: the files of a table with a location of its own have the key that the URL of the table says, if the
bucket is not part of the path.  (Missing: addresses with the bucket in the path.) -/
theorem C123_custom_partial {u : Url} {us : List Text} (hu : u.segs = us ∨ u.segs = us ++ [[]]) (hg : ∀ s ∈ us, Good s)
    {table : Text} {parts : List Text} (ht : Clean table parts) (file : List Text) :
    customKey .hostIsBucket u table file =
      ((place .hostIsBucket (customUrl u table)).1, (place .hostIsBucket (customUrl u table)).2 ++ file) ∧
    (customUrl u table).segs = us ++ parts := by
  have hst : split table = parts := by rw [ht.2.1, split_glue ht.1 ht.2.2]
  have hpf := pathFrom_good (Or.inl hst) ht.2.2
  have hfp : parts.filter (fun s => decide (s ≠ ['.'] ∧ s ≠ ['.', '.'])) = parts := by
    rw [List.filter_eq_self]
    intro s hs
    simpa using ⟨(ht.2.2 s hs).2.2.1, (ht.2.2 s hs).2.2.2⟩
  have hf : us.filter (fun s => decide (s ≠ [])) = us := by
    rw [List.filter_eq_self]
    intro s hs
    simpa using (hg s hs).1
  have hm : us.map part = us := by
    have : ∀ s ∈ us, part s = s := by
      intro s hs
      simp [part, (hg s hs).2.2.1, (hg s hs).2.2.2]
    rw [List.map_congr_left this]
    simp
  have hc : (u.segs.filter (fun s => decide (s ≠ []))).map part = us := by
    rcases hu with hu | hu
    · rw [hu, hf, hm]
    · rw [hu, List.filter_append, hf]; simp [hm]
  have hl : (if u.segs.getLast? = some [] then u.segs.dropLast else u.segs) = us := by
    rcases hu with hu | hu
    · have : ¬ u.segs.getLast? = some [] := by
        rw [hu]
        intro hl
        exact (hg [] (List.mem_of_getLast? hl)).1 rfl
      rw [if_neg this, hu]
    · rw [if_pos (by rw [hu]; simp), hu]; simp
  have hcu : (customUrl u table).segs = us ++ parts := by
    simp only [customUrl]
    rw [hl, hst, hfp]
  refine ⟨?_, hcu⟩
  simp only [customKey, customStore, place]
  rw [hc, hpf, hcu]
  simp [customUrl]

/-- **C123 violated** for addresses with the bucket in the path: the name of the bucket is looked for in the bucket as well.
Files that are where the address says are not found. -/
theorem C123_violated_path_style {u : Url} {bucket : Text} {us : List Text} (hu : u.segs = bucket :: us)
    (hb : Good bucket) (hg : ∀ s ∈ us, Good s) {table : Text} {parts : List Text} (ht : Clean table parts)
    (file : List Text) :
    place .pathHasBucket (customUrl u table) = (bucket, us ++ parts) ∧
    customKey .pathHasBucket u table file = (bucket, bucket :: (us ++ parts ++ file)) := by
  have hg' : ∀ s ∈ bucket :: us, Good s := by
    intro s hs
    rcases List.mem_cons.1 hs with rfl | hs
    · exact hb
    · exact hg s hs
  obtain ⟨h1, h2⟩ := C123_custom_partial (u := u) (us := bucket :: us) (Or.inl hu) hg' ht file
  constructor
  · simp [place, h2]
  · simp only [place, h2, customKey, Prod.mk.injEq] at h1
    have h3 : (customStore .pathHasBucket u).2 = (customStore .hostIsBucket u).2 := rfl
    simp only [customKey]
    rw [h3, h1.2]
    simp [customStore, hu]

/-! ### concrete cases -/

example : Home (.s3 (some ("http".toList, "minio:9000".toList, [])) "bucket".toList (some "some/path/".toList))
      ⟨"http".toList, "minio:9000".toList, ["bucket".toList]⟩ ∧
    logStore (.s3 (some ("http".toList, "minio:9000".toList, [])) "bucket".toList (some "some/path/".toList))
      "t".toList = (["some".toList, "path".toList, "t".toList],
        ⟨"http".toList, "minio:9000".toList, ["bucket".toList, "some".toList, "path".toList, "t".toList]⟩) := by
  refine ⟨?_, by decide +kernel⟩
  refine Home.s3At _ _ _ [] _ _ ⟨by simp, rfl⟩ ⟨by decide, by decide, by decide, by decide⟩ ?_
  intro p hp
  cases hp
  refine ⟨["some".toList, "path".toList], ?_, Or.inr ⟨by decide, by decide +kernel⟩⟩
  intro s hs
  simp only [List.mem_cons, List.not_mem_nil, or_false] at hs
  rcases hs with rfl | rfl <;> exact ⟨by decide, by decide, by decide, by decide⟩

example : Uuid "6bb9913e-0341-446d-bb58-b865803ce0ff".toList := by
  refine ⟨by decide +kernel, ?_⟩
  decide +kernel

example : written (enqueueAll .memory [] [("a".toList, 1), ("b/c".toList, 2), ("a".toList, 3)]) ["a".toList] = [1, 3] ∧
    written (enqueueAll .memory [] [("a".toList, 1), ("b/c".toList, 2), ("a".toList, 3)])
      ["b".toList, "c".toList] = [2] := by
  decide +kernel

example : localTableDir (.localFs ["data".toList]) "t".toList = some ["data".toList, "t".toList] ∧
    (logStore (.localFs ["data".toList]) "t".toList).2 = ⟨"file".toList, [], ["data".toList, "t".toList]⟩ := by
  decide +kernel

example : customKey .hostIsBucket ⟨"s3".toList, "b".toList, ["x".toList, []]⟩ "t".toList ["f".toList] =
      ("b".toList, ["x".toList, "t".toList, "f".toList]) ∧
    customKey .pathHasBucket ⟨"https".toList, "s3.eu.amazonaws.com".toList, ["b".toList, "x".toList]⟩ "t".toList
      ["f".toList] = ("b".toList, ["b".toList, "x".toList, "t".toList, "f".toList]) := by
  decide +kernel

end Seafowl.Address
