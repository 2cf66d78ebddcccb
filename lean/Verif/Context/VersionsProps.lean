import Verif.Context.DatabaseProps

/-!
C131: the versions of a table that the metastore has recorded (`system.table_versions`) are versions of the table, and can be
queried.
-/

namespace Seafowl.Database

variable {ρ : Type}

/-! ### specification -/

/-- The recorded versions of a table are versions of the table, each once, in order.  (A table without log cannot be used.) -/
def Real (w : World ρ) (e : Entry) : Prop :=
  w.log e.uuid = [] ∨ (e.versions ≠ [] ∧ e.versions.Pairwise (· < ·) ∧ ∀ v ∈ e.versions, v < (w.log e.uuid).length)

/-- The rows of every recorded version can be read, and those of the last one are the current rows. -/
def Readable (w : World ρ) (e : Entry) : Prop :=
  (∀ v ∈ e.versions, (w.rowsAt e.uuid v).isSome) ∧
    ∃ v, e.versions.getLast? = some v ∧ w.rowsAt e.uuid v = w.rowsAt e.uuid (w.latest e.uuid)

/-! ### recorded versions exist -/

def Listed (w : World ρ) : Prop := ∀ e ∈ w.entries, Real w e

/-- When an operation keeps that. -/
def OkOp (w : World ρ) : Op ρ → Prop
  | .commit u _ _ => w.log u ≠ []
  | .record u => w.log u ≠ [] ∧ ∀ e ∈ w.entries, e.uuid = u → ∀ v ∈ e.versions, v < w.latest u
  | .mk u => ∀ e ∈ w.entries, e.uuid ≠ u
  | .enter _ u => w.log u ≠ []
  | _ => True

theorem listed_apply {w : World ρ} (h : Listed w) {o : Op ρ} (ho : OkOp w o) : Listed (w.apply o) := by
  cases o with
  | put u p rows => exact h
  | mk u =>
    intro e he
    have hne := ho e he
    have := h e he
    simpa [Real, World.apply, set, hne] using this
  | commit u adds removes =>
    intro e he
    by_cases hu : e.uuid = u
    · rcases h e he with h1 | ⟨h1, h2, h3⟩
      · exact absurd (hu ▸ h1) ho
      · refine .inr ⟨h1, h2, fun v hv => ?_⟩
        have := h3 v hv
        simp only [World.apply, set, hu, if_true, List.length_append]
        rw [hu] at this
        omega
    · have := h e he
      simpa [Real, World.apply, set, hu] using this
  | enter n u =>
    intro e he
    rcases List.mem_append.1 he with he | he
    · exact h e he
    · simp only [List.mem_singleton] at he
      subst he
      refine .inr ⟨by simp, by simp, fun v hv => ?_⟩
      simp only [List.mem_singleton] at hv
      subst hv
      exact List.length_pos_iff.2 ho
  | record u =>
    intro e he
    obtain ⟨e0, he0, rfl⟩ := List.mem_map.1 he
    by_cases hu : e0.uuid = u
    · rw [if_pos hu]
      rcases h e0 he0 with h1 | ⟨h1, h2, h3⟩
      · exact absurd (hu ▸ h1) ho.1
      · have hlt := ho.2 e0 he0 hu
        have hpos := List.length_pos_iff.2 ho.1
        refine .inr ⟨by simp, ?_, ?_⟩
        · rw [List.pairwise_append]
          refine ⟨h2, by simp, ?_⟩
          intro a ha b hb
          simp only [List.mem_singleton] at hb
          subst hb
          exact hlt a ha
        · intro v hv
          show v < (w.log e0.uuid).length
          rcases List.mem_append.1 hv with hv | hv
          · exact h3 v hv
          · simp only [List.mem_singleton] at hv
            subst hv
            rw [hu]
            simp only [World.latest]
            omega
    · rw [if_neg hu]
      exact h e0 he0
  | erase u p => exact h
  | eraseLog u =>
    intro e he
    by_cases hu : e.uuid = u
    · left
      simp [World.apply, set, hu]
    · have := h e he
      simpa [Real, World.apply, set, hu] using this
  | forget n =>
    intro e he
    exact h e (List.mem_filter.1 he).1
  | rename n m =>
    intro e he
    obtain ⟨e0, he0, rfl⟩ := List.mem_map.1 he
    have := h e0 he0
    split
    · exact this
    · exact this
  | prune n =>
    intro e he
    obtain ⟨e0, he0, rfl⟩ := List.mem_map.1 he
    have := h e0 he0
    split
    · rcases this with h1 | ⟨h1, h2, h3⟩
      · exact .inl h1
      · refine .inr ⟨?_, h2.sublist (List.drop_sublist _ _), fun v hv => h3 v (List.mem_of_mem_drop hv)⟩
        have := List.length_pos_iff.2 h1
        intro hnil
        have := congrArg List.length hnil
        simp at this
        omega
    · exact this

/-- When operations in a row keep it. -/
def OkOps : World ρ → List (Op ρ) → Prop
  | _, [] => True
  | w, o :: ops => OkOp w o ∧ OkOps (w.apply o) ops

theorem okOps_append {w : World ρ} {a b : List (Op ρ)} : OkOps w (a ++ b) ↔ OkOps w a ∧ OkOps (w.applyAll a) b := by
  induction a generalizing w with
  | nil => simp [OkOps, World.applyAll]
  | cons o a ih =>
    show OkOp w o ∧ OkOps (w.apply o) (a ++ b) ↔ (OkOp w o ∧ OkOps (w.apply o) a) ∧ OkOps ((w.apply o).applyAll a) b
    rw [ih, and_assoc]

theorem listed_take {w : World ρ} {ops : List (Op ρ)} (h : Listed w) (ho : OkOps w ops) (k : Nat) :
    Listed (w.applyAll (ops.take k)) := by
  induction ops generalizing w k with
  | nil => simpa [World.applyAll] using h
  | cons o ops ih =>
    cases k with
    | zero => exact h
    | succ k => exact ih (listed_apply h ho.1) ho.2 k

theorem listed_all {w : World ρ} {ops : List (Op ρ)} (h : Listed w) (ho : OkOps w ops) : Listed (w.applyAll ops) := by
  have := listed_take h ho ops.length
  rwa [List.take_length] at this

/-- Operations that keep it always. -/
def Easy : Op ρ → Prop
  | .put .. | .erase .. | .eraseLog .. | .forget .. | .rename .. | .prune .. => True
  | _ => False

theorem okOps_easy {ops : List (Op ρ)} (h : ∀ o ∈ ops, Easy o) : ∀ w : World ρ, OkOps w ops := by
  induction ops with
  | nil => intro w; trivial
  | cons o ops ih =>
    intro w
    refine ⟨?_, ih (fun x hx => h x (List.mem_cons_of_mem _ hx)) _⟩
    have := h o List.mem_cons_self
    cases o <;> trivial

theorem puts_easy (u : Nat) (cs : List (List ρ)) : ∀ p : Nat, ∀ o ∈ puts u p cs, Easy o := by
  induction cs with
  | nil => intro p o ho; simp [puts] at ho
  | cons c cs ih =>
    intro p o ho
    rcases List.mem_cons.1 ho with rfl | ho
    · trivial
    · exact ih _ o ho

theorem okOps_commit {w : World ρ} (h : Listed w) {u : Nat} (hl : w.log u ≠ []) (adds removes : List Nat) :
    OkOps w [.commit u adds removes, .record u] := by
  refine ⟨hl, ⟨by simp [World.apply, set], ?_⟩, trivial⟩
  intro e he hu v hv
  rcases h e he with h1 | ⟨-, -, h3⟩
  · exact absurd (hu ▸ h1) hl
  · have := h3 v hv
    rw [hu] at this
    simpa [World.latest, World.apply, set] using this

theorem okOps_store {w : World ρ} (h : Listed w) {u : Nat} (hl : w.log u ≠ []) (cs : List (List ρ)) (removes : List Nat) :
    OkOps w (puts u w.path cs ++ [.commit u (names w.path cs) removes, .record u]) := by
  have hu := puts_spec u cs w
  rw [okOps_append]
  refine ⟨okOps_easy (puts_easy u cs _) w, okOps_commit ?_ (by rw [hu.log]; exact hl) _ _⟩
  intro e he
  rw [hu.entries] at he
  have := h e he
  unfold Real
  rw [hu.log]
  exact this

theorem look_log {w : World ρ} {n : String} {e : Entry} (h : w.look n = some e) : w.log e.uuid ≠ [] := by
  unfold World.look at h
  split at h
  · cases h
  · split at h
    · cases h
    · next hne =>
      cases h
      simpa using hne

theorem fresh_uuid {w : World ρ} {d : Db ρ} (h : Sim w d) : ∀ e ∈ w.entries, e.uuid ≠ w.uuid := by
  intro e he hu
  have := h.fresh (e.name, e.uuid) (List.mem_map_of_mem (f := fun e : Entry => (e.name, e.uuid)) he)
  simp only at this
  omega

theorem plan_okOps {w : World ρ} {d : Db ρ} (E : Env ρ) (h : Listed w) (hs : Sim w d) (s : Stmt ρ) :
    OkOps w ((w.plan E s).soft ++ (w.plan E s).hard) ∧ ∀ k, OkOps w ((w.plan E s).soft.take k ++ (w.plan E s).hard) := by
  have soft0 : ∀ P : Plan ρ, P.soft = [] → OkOps w P.hard →
      OkOps w (P.soft ++ P.hard) ∧ ∀ k, OkOps w (P.soft.take k ++ P.hard) := by
    intro P h0 h1
    simp only [h0, List.nil_append, List.take_nil]
    exact ⟨h1, fun _ => h1⟩
  have hrefuse : OkOps w ((Plan.refuse : Plan ρ).soft ++ (Plan.refuse : Plan ρ).hard) ∧
      ∀ k, OkOps w ((Plan.refuse : Plan ρ).soft.take k ++ (Plan.refuse : Plan ρ).hard) := soft0 _ rfl trivial
  have hfresh := fresh_uuid hs
  have hmk : (w.apply (.mk w.uuid)).log w.uuid ≠ [] := by simp [World.apply, set]
  cases s with
  | create n =>
    simp only [World.plan]
    split
    · exact soft0 _ rfl ⟨hfresh, trivial⟩
    · exact soft0 _ rfl ⟨hfresh, hmk, trivial⟩
  | createAs n q =>
    simp only [World.plan]
    split
    · exact hrefuse
    · split
      · exact soft0 _ rfl ⟨hfresh, trivial⟩
      · refine soft0 _ rfl ?_
        show OkOps w ([.mk w.uuid, .enter n w.uuid] ++ _)
        rw [okOps_append]
        refine ⟨⟨hfresh, hmk, trivial⟩, ?_⟩
        have hl2 : Listed (w.applyAll [.mk w.uuid, .enter n w.uuid]) := listed_all h ⟨hfresh, hmk, trivial⟩
        exact okOps_store hl2 hmk _ _
  | insert n q =>
    simp only [World.plan]
    split
    · next hl => exact soft0 _ rfl (okOps_store h (look_log hl) _ _)
    · exact hrefuse
  | modify n p g =>
    simp only [World.plan]
    split
    · exact hrefuse
    · next e hl =>
      split
      · exact hrefuse
      · split
        · exact soft0 _ rfl (okOps_commit h (look_log hl) _ _)
        · exact soft0 _ rfl (okOps_store h (look_log hl) _ _)
  | truncate n =>
    simp only [World.plan]
    split
    · exact hrefuse
    · next e hl => exact soft0 _ rfl ⟨look_log hl, trivial⟩
  | vacuum n =>
    simp only [World.plan]
    split
    · exact hrefuse
    · next e hl =>
      refine soft0 _ rfl ?_
      have hm : ∀ w' : World ρ, w'.log e.uuid ≠ [] → ∀ b : Bool, OkOps w' (if b then [.commit e.uuid [] []] else []) ∧
          (w'.applyAll (if b then [.commit e.uuid [] []] else [])).log e.uuid ≠ [] := by
        intro w' hw' b
        cases b
        · exact ⟨trivial, hw'⟩
        · exact ⟨⟨hw', trivial⟩, by simp [World.applyAll, World.apply, set]⟩
      have her : ∀ (fs : List Nat) (w' : World ρ), (w'.applyAll (fs.map (Op.erase e.uuid ·))).log = w'.log := by
        intro fs
        induction fs with
        | nil => intro w'; rfl
        | cons f fs ih => intro w'; exact ih _
      simp only
      rw [okOps_append, okOps_append, okOps_append]
      obtain ⟨m1, m2⟩ := hm w (look_log hl) (E.mark && !(dead (w.log e.uuid)).isEmpty)
      refine ⟨⟨⟨m1, okOps_easy ?_ _⟩, (hm _ ?_ _).1⟩, okOps_easy ?_ _⟩
      · intro o ho
        obtain ⟨p, -, rfl⟩ := List.mem_map.1 ho
        trivial
      · rw [applyAll_append, her]
        exact m2
      · intro o ho
        simp only [List.mem_singleton] at ho
        subst ho
        trivial
  | drop n =>
    simp only [World.plan]
    split
    · exact hrefuse
    · next e hf =>
      have hall : ∀ o ∈ (Op.eraseLog e.uuid :: (List.range w.path).map (Op.erase (ρ := ρ) e.uuid ·)), Easy o := by
        intro o ho
        rcases List.mem_cons.1 ho with rfl | ho
        · trivial
        · obtain ⟨p, -, rfl⟩ := List.mem_map.1 ho
          trivial
      constructor
      · refine okOps_easy ?_ w
        intro o ho
        rcases List.mem_append.1 ho with ho | ho
        · exact hall o ho
        · simp only [List.mem_singleton] at ho
          subst ho
          trivial
      · intro k
        refine okOps_easy ?_ w
        intro o ho
        rcases List.mem_append.1 ho with ho | ho
        · exact hall o (List.mem_of_mem_take ho)
        · simp only [List.mem_singleton] at ho
          subst ho
          trivial
  | rename n m =>
    simp only [World.plan]
    split
    · exact soft0 _ rfl ⟨trivial, trivial⟩
    · exact hrefuse
  | select q =>
    simp only [World.plan]
    split
    · exact hrefuse
    · exact soft0 _ rfl trivial
  | wait k => exact soft0 _ rfl trivial

theorem listed_exec {w : World ρ} {d : Db ρ} (E : Env ρ) (h : Listed w) (hs : Sim w d) (s : Stmt ρ) (f : Fault) :
    Listed (w.exec E s f).1 := by
  have hcarry : Listed (w.carry (w.plan E s) f).1 := by
    obtain ⟨h1, h2⟩ := plan_okOps E h hs s
    cases f with
    | none => exact listed_all h h1
    | error k =>
      simp only [World.carry]
      split
      · exact listed_all h (h2 k)
      · split
        · exact listed_take h h1 k
        · exact listed_all h h1
    | crash k =>
      simp only [World.carry]
      split
      · exact listed_take h h1 k
      · exact listed_all h h1
  cases s <;> first | exact hcarry | exact h

theorem listed_run {E : Env ρ} (hE : E.Sound) (sts : List (Stmt ρ × Fault)) : ∀ {w : World ρ} {d : Db ρ}, Listed w → Sim w d →
    Listed (w.run E sts).1 := by
  induction sts with
  | nil => intro w d h _; exact h
  | cons x sts ih =>
    intro w d h hs
    obtain ⟨s, f⟩ := x
    obtain ⟨d1, -, h2⟩ := exec_fits hE hs s f
    exact ih (listed_exec E h hs s f) h2

/-- **C131, existence.**  Whatever is executed and whatever fails, the recorded versions of a table are versions of the table, each
listed once and in order. -/
theorem C131_real {E : Env ρ} (hE : E.Sound) (sts : List (Stmt ρ × Fault)) :
    ∀ e ∈ (World.empty.run E sts).1.entries, Real (World.empty.run E sts).1 e :=
  listed_run hE sts (by intro e he; simp [World.empty] at he) sim_empty

/-- **C131 is violated by TRUNCATE**: the version it makes is never recorded. -/
theorem C131_violated_truncate {E : Env ρ} (hE : E.Sound) (sts : List (Stmt ρ × Fault)) (n : String) :
    let w := (World.empty.run E sts).1
    let w' := (w.exec E (.truncate n) .none).1
    ∀ e, w.look n = some e → w'.find n = some e ∧ w'.latest e.uuid = w.latest e.uuid + 1 ∧ w'.latest e.uuid ∉ e.versions := by
  intro w w' e he
  have hreal : Listed w := C131_real hE sts
  have hl := look_log he
  have hpos := List.length_pos_iff.2 hl
  have hw' : w' = w.apply (.commit e.uuid [] (live (w.log e.uuid))) := by
    simp only [w', World.exec, World.plan, he, World.carry]
    rfl
  have hfind : w.find n = some e := by
    unfold World.look at he
    split at he
    · cases he
    · next e' hf =>
      split at he
      · cases he
      · cases he
        exact hf
  have hlen : w'.latest e.uuid = (w.log e.uuid).length := by
    rw [hw']
    simp [World.latest, World.apply, set]
  refine ⟨by rw [hw']; exact hfind, by rw [hlen]; simp only [World.latest]; omega, ?_⟩
  intro hmem
  rcases hreal e (List.mem_of_find?_eq_some hfind) with h1 | ⟨-, -, h3⟩
  · exact hl h1
  · have := h3 _ hmem
    omega

/-! ### recorded versions can be read -/

/-- `Readable` with more about the last one: it has the files of the newest version. -/
def Inner (w : World ρ) (e : Entry) : Prop :=
  (∀ v ∈ e.versions, (w.rowsAt e.uuid v).isSome) ∧
    ∃ v, e.versions.getLast? = some v ∧ live ((w.log e.uuid).take (v + 1)) = live (w.log e.uuid)

def Held (w : World ρ) : Prop := ∀ e ∈ w.entries, w.log e.uuid ≠ [] → Inner w e

theorem sim_good {w : World ρ} {d : Db ρ} (h : Sim w d) {e : Entry} (he : e ∈ w.entries) (hl : w.log e.uuid ≠ []) :
    ∃ a, Good (w.log e.uuid) (w.files e.uuid) w.path w.now a := by
  have hm : (e.name, e.uuid) ∈ w.keys := List.mem_map_of_mem (f := fun e : Entry => (e.name, e.uuid)) he
  obtain ⟨a, -, ha⟩ : ∃ a ∈ d, TabOk w (e.name, e.uuid) a := by
    have hrel := h.rel
    clear h
    revert hm
    generalize w.keys = ks at hrel
    intro hm
    induction hrel with
    | nil => simp at hm
    | @cons k a ks d h1 _ ih =>
      rcases List.mem_cons.1 hm with rfl | hm
      · exact ⟨a, List.mem_cons_self, h1⟩
      · obtain ⟨b, hb, h2⟩ := ih hm
        exact ⟨b, List.mem_cons_of_mem _ hb, h2⟩
  exact ⟨a, ha.good (ha.intact hl)⟩

theorem current_readable {w : World ρ} {d : Db ρ} (h : Sim w d) {e : Entry} (he : e ∈ w.entries) (hl : w.log e.uuid ≠ []) :
    (readAll (w.files e.uuid) (live (w.log e.uuid))).isSome := by
  obtain ⟨a, hg⟩ := sim_good h he hl
  obtain ⟨-, -, r, -, h2, -⟩ := hg.current
  rw [h2]
  rfl

theorem inner_frame {w w' : World ρ} {d : Db ρ} (h : Sim w d) {e e' : Entry} (he : e ∈ w.entries) (hu : e'.uuid = e.uuid)
    (hv : e'.versions = e.versions) (hlog : w'.log e.uuid = w.log e.uuid)
    (hfiles : ∀ p < w.path, w'.files e.uuid p = w.files e.uuid p) (hw : w.log e.uuid ≠ []) (hi : Inner w e) : Inner w' e' := by
  obtain ⟨a, hg⟩ := sim_good h he hw
  obtain ⟨h1, v, h2, h3⟩ := hi
  refine ⟨?_, v, by rw [hv]; exact h2, by rw [hu, hlog]; exact h3⟩
  intro x hx
  rw [hv] at hx
  have := h1 x hx
  unfold World.rowsAt at this ⊢
  rw [hu, hlog, readAll_congr (g := w.files e.uuid)]
  · exact this
  · intro p hp
    obtain ⟨c, hc, hpc⟩ := mem_live hp
    exact hfiles p (hg.paths c (List.mem_of_mem_take hc) p hpc)

theorem held_store {w : World ρ} {d d' : Db ρ} (h : Sim w d) (hL : Listed w) (hH : Held w) {u : Nat} (hl : w.log u ≠ [])
    (cs : List (List ρ)) (removes : List Nat)
    (h' : Sim (w.applyAll (puts u w.path cs ++ [.commit u (names w.path cs) removes, .record u])) d') :
    Held (w.applyAll (puts u w.path cs ++ [.commit u (names w.path cs) removes, .record u])) := by
  intro e' he' hl'
  have hcur := current_readable h' he' hl'
  have hup := puts_spec u cs w
  rw [applyAll_append] at he' hl' hcur ⊢
  generalize w.applyAll (puts u w.path cs) = w1 at he' hl' hcur hup ⊢
  obtain ⟨e, he, rfl⟩ := List.mem_map.1 he'
  have he0 : e ∈ w.entries := by
    rw [← hup.entries]
    exact he
  by_cases hu : e.uuid = u
  · rw [if_pos hu] at hl' hcur ⊢
    have hw : w.log e.uuid ≠ [] := hu ▸ hl
    obtain ⟨a, hg⟩ := sim_good h he0 hw
    have hlog : ((w1.applyAll [.commit u (names w.path cs) removes, .record u])).log u =
        w.log u ++ [⟨w.now, names w.path cs, removes⟩] := by
      simp [World.applyAll, World.apply, set, hup.log, hup.now]
    have hfiles : ((w1.applyAll [.commit u (names w.path cs) removes, .record u])).files = w1.files := rfl
    have hlatest : (w1.apply (.commit u (names w.path cs) removes)).latest u = (w.log u).length := by
      simp [World.latest, World.apply, set, hup.log]
    have hi := hH e he0 hw
    subst hu
    simp only at hcur
    refine ⟨?_, (w.log e.uuid).length, by rw [← hlatest]; simp, ?_⟩
    · intro v hv
      show (World.rowsAt _ e.uuid v).isSome
      rcases List.mem_append.1 hv with hv | hv
      · have hlt : v < (w.log e.uuid).length := by
          rcases hL e he0 with h1 | ⟨-, -, h3⟩
          · exact absurd h1 hw
          · exact h3 v hv
        have := hi.1 v hv
        unfold World.rowsAt at this ⊢
        rw [hlog, List.take_append_of_le_length (by omega), hfiles, readAll_congr (g := w.files e.uuid)]
        · exact this
        · intro p hp
          obtain ⟨c, hc, hpc⟩ := mem_live hp
          exact hup.old p (hg.paths c (List.mem_of_mem_take hc) p hpc)
      · have hv' : v = (w.log e.uuid).length := by
          rw [← hlatest]
          exact List.mem_singleton.1 hv
        subst hv'
        unfold World.rowsAt
        rw [List.take_of_length_le (by rw [hlog]; simp)]
        exact hcur
    · rw [List.take_of_length_le]
      show (World.log _ e.uuid).length ≤ _
      rw [hlog]
      simp
  · rw [if_neg hu] at hl' ⊢
    have hlog : (w1.applyAll [.commit u (names w.path cs) removes, .record u]).log e.uuid = w.log e.uuid := by
      simp [World.applyAll, World.apply, set, hup.log, hu]
    rw [hlog] at hl'
    exact inner_frame h he0 rfl rfl hlog (fun p _ => by
      show w1.files e.uuid p = _
      rw [hup.others _ hu]) hl' (hH e he0 hl')

theorem vac_entries {u : Nat} (ops : List (Op ρ)) (ho : ∀ o ∈ ops, o = .commit u [] [] ∨ ∃ p, o = .erase u p) :
    ∀ w : World ρ, (w.applyAll ops).entries = w.entries := by
  induction ops with
  | nil => intro w; rfl
  | cons o ops ih =>
    intro w
    have h1 := ih (fun x hx => ho x (List.mem_cons_of_mem _ hx)) (w.apply o)
    show ((w.apply o).applyAll ops).entries = _
    rw [h1]
    rcases ho o List.mem_cons_self with rfl | ⟨p, rfl⟩ <;> rfl

theorem last_drop {l : List Nat} {v : Nat} (h : l.getLast? = some v) : l.drop (l.length - 1) = [v] := by
  obtain ⟨l', rfl⟩ := List.getLast?_eq_some_iff.1 h
  simp

theorem mk_held {w : World ρ} {d : Db ρ} (h : Sim w d) (hH : Held w) : Held (w.apply (.mk w.uuid)) := by
  intro e he hl
  have hne := fresh_uuid h e he
  have hlog : (w.apply (.mk w.uuid)).log e.uuid = w.log e.uuid := by simp [World.apply, set, hne]
  rw [hlog] at hl
  exact inner_frame h he rfl rfl hlog (fun _ _ => rfl) hl (hH e he hl)

theorem enter_held {w : World ρ} {d : Db ρ} (h : Sim w d) (hH : Held w) (n : String) :
    Held ((w.apply (.mk w.uuid)).apply (.enter n w.uuid)) := by
  intro e he hl
  rcases List.mem_append.1 he with he | he
  · exact mk_held h hH e he hl
  · simp only [List.mem_singleton] at he
    subst he
    have hlog : ((w.apply (.mk w.uuid)).apply (.enter n w.uuid)).log w.uuid = [⟨w.now, [], []⟩] := by simp [World.apply, set]
    refine ⟨?_, 0, rfl, ?_⟩
    · intro v hv
      simp only [List.mem_singleton] at hv
      subst hv
      unfold World.rowsAt
      rw [hlog]
      rfl
    · show live (List.take 1 (World.log _ w.uuid)) = live (World.log _ w.uuid)
      rw [hlog]
      rfl

/-- The statements that record what they do. -/
def Stmt.Records : Stmt ρ → Prop
  | .truncate _ => False
  | _ => True

theorem held_exec {w : World ρ} {d : Db ρ} {E : Env ρ} (hE : E.Sound) (h : Sim w d) (hL : Listed w) (hH : Held w) {s : Stmt ρ}
    (hs : s.Records) : Held (w.exec E s .none).1 := by
  obtain ⟨d', -, h'⟩ := exec_fits hE h s .none
  have hrefuse : ∀ P : Plan ρ, P = Plan.refuse → Held (w.carry P .none).1 := by
    rintro P rfl
    rw [carry_refuse]
    exact hH
  cases s with
  | create n =>
    simp only [World.exec, World.plan]
    split
    · exact mk_held h hH
    · exact enter_held h hH n
  | createAs n q =>
    simp only [World.exec, World.plan] at h' ⊢
    split at h'
    · exact hrefuse _ rfl
    · split at h'
      · exact mk_held h hH
      · next hf =>
        have h2 := enter_sim h hf
        have hL2 : Listed ((w.apply (.mk w.uuid)).apply (.enter n w.uuid)) :=
          listed_all (ops := [.mk w.uuid, .enter n w.uuid]) hL
            ⟨fresh_uuid h, by show (w.apply (.mk w.uuid)).log w.uuid ≠ []; simp [World.apply, set], trivial⟩
        have hlog : ((w.apply (.mk w.uuid)).apply (.enter n w.uuid)).log w.uuid ≠ [] := by simp [World.apply, set]
        exact held_store h2 hL2 (enter_held h hH n) hlog _ [] h'
  | insert n q =>
    simp only [World.exec, World.plan] at h' ⊢
    split at h'
    · next hl => exact held_store h hL hH (look_log hl) _ [] h'
    · exact hrefuse _ rfl
  | modify n p g =>
    simp only [World.exec, World.plan] at h' ⊢
    split at h'
    · exact hrefuse _ rfl
    · next e hl =>
      split at h'
      · exact hrefuse _ rfl
      · next rows _ =>
        split at h'
        · next hemp =>
          rw [if_pos hemp]
          exact held_store h hL hH (look_log hl) [] [] h'
        · next hemp =>
          rw [if_neg hemp]
          exact held_store h hL hH (look_log hl) _ _ h'
  | truncate n => exact hs.elim
  | vacuum n =>
    simp only [World.exec, World.plan] at h' ⊢
    split at h'
    · exact hrefuse _ rfl
    · next e hl =>
      obtain ⟨_, -, -, -, hmem, -, -, hg⟩ := h.look_some hl
      generalize hops : (if E.mark && !(dead (w.log e.uuid)).isEmpty then [Op.commit e.uuid [] []] else []) ++
        (dead (w.log e.uuid)).map (Op.erase (ρ := ρ) e.uuid ·) ++
        (if E.mark && !(dead (w.log e.uuid)).isEmpty then [Op.commit e.uuid [] []] else []) = ops at h' ⊢
      have hall : ∀ o ∈ ops, o = .commit e.uuid [] [] ∨ ∃ p ∈ dead (w.log e.uuid), o = .erase e.uuid p := by
        have hm : ∀ o ∈ (if E.mark && !(dead (w.log e.uuid)).isEmpty then [Op.commit (ρ := ρ) e.uuid [] []] else []),
            o = .commit e.uuid [] [] := by
          intro o ho
          split at ho
          · simpa using ho
          · simp at ho
        intro o ho
        rw [← hops] at ho
        rcases List.mem_append.1 ho with ho | ho
        · rcases List.mem_append.1 ho with ho | ho
          · exact .inl (hm o ho)
          · obtain ⟨p, hp, rfl⟩ := List.mem_map.1 ho
            exact .inr ⟨p, hp, rfl⟩
        · exact .inl (hm o ho)
      have hv : Vacuumed w (w.applyAll ops) e.uuid (dead (w.log e.uuid)) := by
        refine vacuumed_all (n := n) ops fun o ho => ?_
        rcases hall o ho with h1 | h1
        · exact .inl h1
        · exact .inr (.inl h1)
      have hent : (w.applyAll ops).entries = w.entries := vac_entries (u := e.uuid) ops (fun o ho => by
        rcases hall o ho with h1 | ⟨p, -, h1⟩
        · exact .inl h1
        · exact .inr ⟨p, h1⟩) w
      show Held (w.applyAll ([] ++ (ops ++ [.prune n])))
      rw [List.nil_append, applyAll_append]
      generalize w.applyAll ops = w1 at hv hent
      show Held (w1.apply (.prune n))
      intro e' he' hl'
      obtain ⟨e0, he0, rfl⟩ := List.mem_map.1 he'
      rw [hent] at he0
      by_cases hn : e0.name = n
      · have heq : e0.uuid = e.uuid := by
          have := nodup_key h.names (List.mem_map_of_mem (f := fun e : Entry => (e.name, e.uuid)) he0) hmem hn
          exact congrArg Prod.snd this
        have hw : w.log e0.uuid ≠ [] := by rw [heq]; exact hg.ne
        obtain ⟨hi1, v, hi2, hi3⟩ := hH e0 he0 hw
        have hlt : v < (w.log e0.uuid).length := by
          rcases hL e0 he0 with h1 | ⟨-, -, h3⟩
          · exact absurd h1 hw
          · exact h3 v (List.mem_of_getLast? hi2)
        have hbeq : (e0.name == n) = true := by simp [hn]
        rw [if_pos hbeq]
        obtain ⟨ms, hm1, hm2, -⟩ := hv.log
        have hlog : (w1.apply (.prune n)).log e0.uuid = w.log e0.uuid ++ ms := by rw [heq]; exact hm1
        have hlive : live ((w1.apply (.prune n)).log e0.uuid) = live (w.log e0.uuid) := by
          rw [hlog, live_marks _ _ fun c hc => ⟨(hm2 c hc).1, (hm2 c hc).2.1⟩]
        have htake : live (((w1.apply (.prune n)).log e0.uuid).take (v + 1)) = live (w.log e0.uuid) := by
          rw [hlog, List.take_append_of_le_length (by omega), hi3]
        refine ⟨?_, v, ?_, ?_⟩
        · intro x hx
          simp only at hx
          rw [last_drop hi2] at hx
          simp only [List.mem_singleton] at hx
          subst hx
          show (World.rowsAt _ e0.uuid x).isSome
          unfold World.rowsAt
          rw [htake, readAll_congr (g := w.files e0.uuid)]
          · exact current_readable h he0 hw
          · intro p hp
            show w1.files e0.uuid p = _
            rw [heq]
            refine hv.kept p ?_
            intro hd
            have := (List.mem_filter.1 hd).2
            rw [heq] at hp
            simp [hp] at this
        · simp only
          rw [last_drop hi2]
          rfl
        · show live (List.take (v + 1) (World.log _ e0.uuid)) = live (World.log _ e0.uuid)
          rw [htake, hlive]
      · have hbeq : ¬ (e0.name == n) = true := by simpa using hn
        rw [if_neg hbeq] at hl' ⊢
        have hne : e0.uuid ≠ e.uuid := by
          intro heq
          have := nodup_uuid h.uuids (List.mem_map_of_mem (f := fun e : Entry => (e.name, e.uuid)) he0) hmem heq
          exact hn (congrArg Prod.fst this)
        have hlog : (w1.apply (.prune n)).log e0.uuid = w.log e0.uuid := hv.frame.log _ hne
        rw [hlog] at hl'
        exact inner_frame h he0 rfl rfl hlog (fun p _ => by
          show w1.files e0.uuid p = _
          rw [hv.frame.files _ hne]) hl' (hH e0 he0 hl')
  | drop n =>
    rcases h.find n with ⟨hf, -⟩ | ⟨e, a, hf, -, hn, hm, -⟩
    · simp only [World.exec, World.plan, hf]
      exact hrefuse _ rfl
    · simp only [World.exec, World.plan, hf, World.carry]
      rw [applyAll_append]
      have hall : ∀ o ∈ (Op.eraseLog e.uuid :: (List.range w.path).map (Op.erase (ρ := ρ) e.uuid ·)), Removal e.uuid o := by
        intro o ho
        rcases List.mem_cons.1 ho with rfl | ho
        · exact .inl rfl
        · obtain ⟨p, -, rfl⟩ := List.mem_map.1 ho
          exact .inr ⟨p, rfl⟩
      obtain ⟨-, hF, -⟩ := removal_spec _ hall w
      have hent : ∀ ops : List (Op ρ), (∀ o ∈ ops, Removal e.uuid o) → ∀ w : World ρ, (w.applyAll ops).entries = w.entries := by
        intro ops
        induction ops with
        | nil => intro _ w; rfl
        | cons o ops ih =>
          intro ho w
          have := ih (fun x hx => ho x (List.mem_cons_of_mem _ hx)) (w.apply o)
          show ((w.apply o).applyAll ops).entries = _
          rw [this]
          rcases ho o List.mem_cons_self with rfl | ⟨p, rfl⟩ <;> rfl
      have hent := hent _ hall w
      generalize w.applyAll _ = w1 at hF hent ⊢
      show Held (w1.apply (.forget n))
      intro e' he' hl'
      obtain ⟨he1, he2⟩ := List.mem_filter.1 he'
      rw [hent] at he1
      have hne : e'.uuid ≠ e.uuid := by
        intro heq
        have := nodup_uuid h.uuids (List.mem_map_of_mem (f := fun e : Entry => (e.name, e.uuid)) he1) hm heq
        have := congrArg Prod.fst this
        simp only at this
        rw [this, hn] at he2
        simp at he2
      have hlog : (w1.apply (.forget n)).log e'.uuid = w.log e'.uuid := hF.log _ hne
      rw [hlog] at hl'
      exact inner_frame h he1 rfl rfl hlog (fun p _ => by
        show w1.files e'.uuid p = _
        rw [hF.files _ hne]) hl' (hH e' he1 hl')
  | rename n m =>
    simp only [World.exec, World.plan]
    split
    · show Held (w.apply (.rename n m))
      intro e' he' hl'
      obtain ⟨e0, he0, rfl⟩ := List.mem_map.1 he'
      split
      · next hb =>
        rw [if_pos hb] at hl'
        exact inner_frame h he0 rfl rfl rfl (fun _ _ => rfl) hl' (hH e0 he0 hl')
      · next hb =>
        rw [if_neg hb] at hl'
        exact inner_frame h he0 rfl rfl rfl (fun _ _ => rfl) hl' (hH e0 he0 hl')
    · exact hrefuse _ rfl
  | select q =>
    simp only [World.exec, World.plan]
    split
    · exact hrefuse _ rfl
    · exact hH
  | wait k => exact hH

theorem held_run {E : Env ρ} (hE : E.Sound) (sts : List (Stmt ρ)) (hs : ∀ s ∈ sts, s.Records) : ∀ {w : World ρ} {d : Db ρ},
    Sim w d → Listed w → Held w →
    ∃ d', Sim (w.run E (sts.map fun s => (s, .none))).1 d' ∧ Held (w.run E (sts.map fun s => (s, .none))).1 := by
  induction sts with
  | nil => intro w d h _ hH; exact ⟨d, h, hH⟩
  | cons s sts ih =>
    intro w d h hL hH
    obtain ⟨d1, -, h1⟩ := exec_fits hE h s .none
    exact ih (fun x hx => hs x (List.mem_cons_of_mem _ hx)) h1 (listed_exec E hL h s .none)
      (held_exec hE h hL hH (hs s List.mem_cons_self))

/-- **C131 for histories without failures and without TRUNCATE**: every recorded version of a table can be
read, and the last recorded one has the current rows.  (With them: `C131_violated_truncate`, `C131_violated_vacuum`,
`C131_violated_record`.) -/
theorem C131_partial {E : Env ρ} (hE : E.Sound) (sts : List (Stmt ρ)) (hs : ∀ s ∈ sts, s.Records) :
    let w := (World.empty.run E (sts.map fun s => (s, .none))).1
    ∀ n e, w.look n = some e → Readable w e := by
  intro w n e he
  obtain ⟨d, hsim, hheld⟩ := held_run hE sts hs sim_empty (by intro e he; simp [World.empty] at he)
    (by intro e he; simp [World.empty] at he)
  have hl := look_log he
  have hmem : e ∈ w.entries := by
    obtain ⟨a, hf, -⟩ := hsim.look_some he
    exact List.mem_of_find?_eq_some hf
  obtain ⟨h1, v, h2, h3⟩ := hheld e hmem hl
  refine ⟨h1, v, h2, ?_⟩
  unfold World.rowsAt
  rw [h3]
  congr 2
  have := List.length_pos_iff.2 hl
  rw [List.take_of_length_le]
  simp only [World.latest]
  omega

/-- The recorded versions of a table, and what reading each of them gives. -/
def World.listing (w : World ρ) (n : String) : List (Nat × Option (List ρ)) :=
  match w.find n with
  | none => []
  | some e => e.versions.map fun v => (v, w.rowsAt e.uuid v)

-- three recorded versions; after VACUUM the last one is left
example : let w := (World.empty.run demo ([.createAs "t" (values [1, 2]), .modify "t" (· == 2) (fun _ => none)].map fun s => (s, .none))).1
    w.listing "t" = [(0, some []), (1, some [1, 2]), (2, some [1])] ∧
    (w.exec demo (.vacuum "t") .none).1.listing "t" = [(2, some [1])] := by
  decide +kernel

/-- **C131 is violated by TRUNCATE and VACUUM**: the only recorded version cannot be read. -/
theorem C131_violated_vacuum : (World.empty.run demo
    [(.createAs "t" (values [1, 2]), .none), (.truncate "t", .none), (.vacuum "t", .none)]).1.listing "t" = [(1, none)] := by
  decide +kernel

/-- **C131 is violated by a failure of the metastore**: the version of a DELETE is not recorded, and after a VACUUM the only
recorded version cannot be read. -/
theorem C131_violated_record : (World.empty.run demo
    [(.createAs "t" (values [1, 2]), .none), (.modify "t" (· == 2) (fun _ => none), .error 2), (.vacuum "t", .none)]).1.listing "t" =
      [(1, none)] := by
  decide +kernel

/-! ### whenever it happens -/

theorem clean_all {u : Nat} (ops : List (Op ρ)) (ho : ∀ o ∈ ops, o = .commit u [] [] ∨ ∃ p, o = .erase u p) : ∀ w : World ρ,
    (w.applyAll ops).entries = w.entries ∧ (∃ ms, (w.applyAll ops).log u = w.log u ++ ms) ∧
    ∀ p, (w.files u p = none ∨ Op.erase u p ∈ ops) → (w.applyAll ops).files u p = none := by
  induction ops with
  | nil => exact fun w => ⟨rfl, ⟨[], by simp [World.applyAll]⟩, fun p hp => by simpa [World.applyAll] using hp⟩
  | cons o ops ih =>
    intro w
    obtain ⟨h1, ⟨ms, h2⟩, h3⟩ := ih (fun x hx => ho x (List.mem_cons_of_mem _ hx)) (w.apply o)
    have hstep : w.applyAll (o :: ops) = (w.apply o).applyAll ops := rfl
    rw [hstep]
    rcases ho o List.mem_cons_self with rfl | ⟨q, rfl⟩
    · refine ⟨h1, ⟨[⟨w.now, [], []⟩] ++ ms, ?_⟩, fun p hp => h3 p ?_⟩
      · rw [h2]
        simp [World.apply, set]
      · rcases hp with hp | hp
        · exact .inl hp
        · exact .inr (by simpa using hp)
    · refine ⟨h1, ⟨ms, h2⟩, fun p hp => h3 p ?_⟩
      by_cases hpq : p = q
      · exact .inl (by simp [World.apply, set, hpq])
      · rcases hp with hp | hp
        · exact .inl (by simpa [World.apply, set, hpq] using hp)
        · rcases List.mem_cons.1 hp with hp | hp
          · injection hp with _ hp
            exact absurd hp hpq
          · exact .inr hp

theorem readAll_missing {f : Nat → Option (List ρ)} {l : List Nat} {p : Nat} (hp : p ∈ l) (hf : f p = none) : readAll f l = none := by
  induction l with
  | nil => simp at hp
  | cons a l ih =>
    rcases List.mem_cons.1 hp with rfl | hp
    · simp only [readAll, hf]
    · simp only [readAll, ih hp]
      cases f a <;> rfl

theorem look_find {w : World ρ} {n : String} {e : Entry} (he : w.look n = some e) : w.find n = some e := by
  unfold World.look at he
  split at he
  · cases he
  · next e' hf =>
    split at he
    · cases he
    · cases he
      exact hf

/-- VACUUM of a table whose last recorded version has a file that the newest version has not: that version is the only one left
in the metastore, and it cannot be read. -/
theorem vacuum_lost (E : Env ρ) {w : World ρ} {n : String} {e : Entry} (he : w.look n = some e) {v : Nat}
    (hv : e.versions.getLast? = some v) (hlen : v < (w.log e.uuid).length) {p : Nat}
    (hp : p ∈ live ((w.log e.uuid).take (v + 1))) (hd : p ∈ dead (w.log e.uuid)) :
    (w.exec E (.vacuum n) .none).2 = .ok ∧ (w.exec E (.vacuum n) .none).1.listing n = [(v, none)] := by
  have hf := look_find he
  generalize hm : (if E.mark && !(dead (w.log e.uuid)).isEmpty then [Op.commit (ρ := ρ) e.uuid [] []] else []) = m
  have hexec : w.exec E (.vacuum n) .none =
      ((w.applyAll (m ++ (dead (w.log e.uuid)).map (.erase e.uuid ·) ++ m)).apply (.prune n), .ok) := by
    simp only [World.exec, World.plan, he, hm, World.carry]
    simp [World.applyAll]
  have hmm : ∀ o ∈ m, o = .commit e.uuid [] [] := by
    intro o ho
    rw [← hm] at ho
    split at ho
    · simpa using ho
    · simp at ho
  obtain ⟨h1, ⟨ms, h2⟩, h3⟩ := clean_all (u := e.uuid) (m ++ (dead (w.log e.uuid)).map (.erase e.uuid ·) ++ m) (by
    intro o ho
    rcases List.mem_append.1 ho with ho | ho
    · rcases List.mem_append.1 ho with ho | ho
      · exact .inl (hmm o ho)
      · obtain ⟨q, _, rfl⟩ := List.mem_map.1 ho
        exact .inr ⟨q, rfl⟩
    · exact .inl (hmm o ho)) w
  rw [hexec]
  refine ⟨rfl, ?_⟩
  generalize w.applyAll (m ++ (dead (w.log e.uuid)).map (.erase e.uuid ·) ++ m) = w1 at h1 h2 h3
  have hname : (e.name == n) = true := by
    have := List.find?_some hf
    exact this
  have hfind : (w1.apply (.prune n)).find n = some { e with versions := e.versions.drop (e.versions.length - 1) } := by
    simp only [World.find, World.apply, h1]
    simp only [World.find] at hf
    generalize w.entries = es at hf
    induction es with
    | nil => simp at hf
    | cons a es ih =>
      simp only [List.map_cons, List.find?_cons]
      by_cases ha : (a.name == n) = true
      · simp only [List.find?_cons, ha, Option.some.injEq] at hf
        subst hf
        simp only [ha, if_true]
      · simp only [List.find?_cons, ha] at hf
        simp only [ha, Bool.false_eq_true, if_false]
        exact ih hf
  have hdrop : e.versions.drop (e.versions.length - 1) = [v] := by
    obtain ⟨ys, hys⟩ := List.getLast?_eq_some_iff.1 hv
    rw [hys]
    simp
  simp only [World.listing, hfind, hdrop, List.map_cons, List.map_nil, List.cons.injEq, Prod.mk.injEq, true_and, and_true]
  have hfiles : (w1.apply (.prune n)).files = w1.files := rfl
  have hlog : (w1.apply (.prune n)).log = w1.log := rfl
  simp only [World.rowsAt, hfiles, hlog]
  rw [h2, List.take_append_of_le_length (by omega)]
  exact readAll_missing hp (h3 p (.inr (by
    refine List.mem_append.2 (.inl (List.mem_append.2 (.inr (List.mem_map.2 ⟨p, hd, rfl⟩)))))))

/-- **C131 is violated by TRUNCATE and VACUUM, always**: for every table that has files, after any history without failures and
without another TRUNCATE, the only version left in the metastore after both cannot be read. -/
theorem C131_violated_vacuum_always {E : Env ρ} (hE : E.Sound) (sts : List (Stmt ρ)) (hs : ∀ s ∈ sts, s.Records) (n : String) :
    let w := (World.empty.run E (sts.map fun s => (s, .none))).1
    ∀ e, w.look n = some e → live (w.log e.uuid) ≠ [] →
      ∃ v ∈ e.versions, ((w.run E [(.truncate n, .none), (.vacuum n, .none)]).1).listing n = [(v, none)] := by
  intro w e he hne
  obtain ⟨d, hsim, hheld⟩ := held_run hE sts hs sim_empty (by intro e he; simp [World.empty] at he)
    (by intro e he; simp [World.empty] at he)
  have hl := look_log he
  have hf := look_find he
  have hmem : e ∈ w.entries := List.mem_of_find?_eq_some hf
  obtain ⟨-, v, hv, hlive⟩ := hheld e hmem hl
  have hreal := C131_real hE (sts.map fun s => (s, .none)) e hmem
  have hlt : v < (w.log e.uuid).length := by
    rcases hreal with h | ⟨-, -, h⟩
    · exact absurd h hl
    · exact h v (List.mem_of_getLast? hv)
  obtain ⟨p, hp⟩ := List.exists_mem_of_ne_nil _ hne
  refine ⟨v, List.mem_of_getLast? hv, ?_⟩
  have hw1 : (w.exec E (.truncate n) .none).1 = w.apply (.commit e.uuid [] (live (w.log e.uuid))) := by
    simp only [World.exec, World.plan, he, World.carry]
    rfl
  have hrun : (w.run E [(.truncate n, .none), (.vacuum n, .none)]).1 =
      ((w.apply (.commit e.uuid [] (live (w.log e.uuid)))).exec E (.vacuum n) .none).1 := by
    simp only [World.run, hw1]
  rw [hrun]
  have hlog : (w.apply (.commit e.uuid [] (live (w.log e.uuid)))).log e.uuid =
      w.log e.uuid ++ [⟨w.now, [], live (w.log e.uuid)⟩] := by
    simp [World.apply, set]
  have hlook : (w.apply (.commit e.uuid [] (live (w.log e.uuid)))).look n = some e := by
    have : (w.apply (.commit e.uuid [] (live (w.log e.uuid)))).find n = some e := hf
    simp only [World.look, this, hlog]
    simp
  refine (vacuum_lost E hlook hv (by rw [hlog]; simp; omega) (p := p) ?_ ?_).2
  · rw [hlog, List.take_append_of_le_length (by omega), hlive]
    exact hp
  · rw [hlog]
    simp only [dead, List.mem_filter, List.flatMap_append, List.flatMap_cons, List.flatMap_nil, List.append_nil, List.mem_append]
    refine ⟨.inr hp, ?_⟩
    rw [live_snoc]
    simp

/-- Its hypotheses. -/
example : let w := (World.empty.run demo ([.createAs "t" (values [1, 2])].map fun s => (s, .none))).1
    ((w.look "t").map fun e => live (w.log e.uuid)) = some [0] := by decide +kernel

/-- **C131 is violated by a failure of the metastore, always**: if the version of an UPDATE or DELETE that rewrites a file is not
recorded, the only version left in the metastore after a VACUUM cannot be read. -/
theorem C131_violated_record_always {E : Env ρ} (hE : E.Sound) (sts : List (Stmt ρ)) (hs : ∀ s ∈ sts, s.Records) (n : String)
    (p : ρ → Bool) (g : ρ → Option ρ) :
    let w := (World.empty.run E (sts.map fun s => (s, .none))).1
    ∀ e rows, w.look n = some e → touched E (w.files e.uuid) p (live (w.log e.uuid)) ≠ [] →
      readAll (w.files e.uuid) (touched E (w.files e.uuid) p (live (w.log e.uuid))) = some rows →
      ∃ v ∈ e.versions, ((w.run E [(.modify n p g, .error ((E.cut (rows.filterMap (change p g))).length + 1)), (.vacuum n, .none)]).1).listing n =
        [(v, none)] := by
  intro w e rows he hne hr
  obtain ⟨d, hsim, hheld⟩ := held_run hE sts hs sim_empty (by intro e he; simp [World.empty] at he)
    (by intro e he; simp [World.empty] at he)
  have hl := look_log he
  have hf := look_find he
  have hmem : e ∈ w.entries := List.mem_of_find?_eq_some hf
  obtain ⟨-, v, hv, hlive⟩ := hheld e hmem hl
  obtain ⟨a, hgood⟩ := sim_good hsim hmem hl
  have hreal := C131_real hE (sts.map fun s => (s, .none)) e hmem
  have hlt : v < (w.log e.uuid).length := by
    rcases hreal with h | ⟨-, -, h⟩
    · exact absurd h hl
    · exact h v (List.mem_of_getLast? hv)
  generalize htt : touched E (w.files e.uuid) p (live (w.log e.uuid)) = removes at hne hr
  generalize hpp : E.cut (rows.filterMap (change p g)) = parts
  obtain ⟨q, hq⟩ := List.exists_mem_of_ne_nil _ hne
  have hqlive : q ∈ live (w.log e.uuid) := by
    rw [← htt] at hq
    exact List.mem_of_mem_filter hq
  refine ⟨v, List.mem_of_getLast? hv, ?_⟩
  have hemp : ¬ removes.isEmpty = true := by
    intro h
    exact hne (List.isEmpty_iff.1 h)
  have hplan : w.plan E (.modify n p g) =
      ⟨[], puts e.uuid w.path parts ++ [.commit e.uuid (names w.path parts) removes, .record e.uuid], .ok⟩ := by
    simp only [World.plan, he, htt, hr, if_neg hemp, hpp]
  have hw1 : (w.exec E (.modify n p g) (.error (parts.length + 1))).1 =
      (w.applyAll (puts e.uuid w.path parts)).apply (.commit e.uuid (names w.path parts) removes) := by
    have hlen : parts.length + 1 < (puts e.uuid w.path parts ++
        [Op.commit e.uuid (names w.path parts) removes, Op.record e.uuid] : List (Op ρ)).length := by
      simp [puts_length]
    simp only [World.exec, hplan, World.carry, List.length_nil, Nat.not_lt_zero, if_false, List.nil_append, if_pos hlen]
    have htake : (puts e.uuid w.path parts ++ [Op.commit e.uuid (names w.path parts) removes, Op.record e.uuid] : List (Op ρ)).take
        (parts.length + 1) = puts e.uuid w.path parts ++ [Op.commit e.uuid (names w.path parts) removes] := by
      have : parts.length + 1 = (puts e.uuid w.path parts : List (Op ρ)).length + 1 := by rw [puts_length]
      rw [this, List.take_length_add_append]
      rfl
    rw [htake, applyAll_append]
    rfl
  have hup := puts_spec e.uuid parts w
  generalize hw2 : w.applyAll (puts e.uuid w.path parts) = w2 at hup hw1
  have hrun : (w.run E [(.modify n p g, .error (parts.length + 1)), (.vacuum n, .none)]).1 =
      ((w2.apply (.commit e.uuid (names w.path parts) removes)).exec E (.vacuum n) .none).1 := by
    simp only [World.run, hw1]
  rw [hrun]
  have hlog : (w2.apply (.commit e.uuid (names w.path parts) removes)).log e.uuid =
      w.log e.uuid ++ [⟨w2.now, names w.path parts, removes⟩] := by
    simp [World.apply, set, hup.log]
  have hlook : (w2.apply (.commit e.uuid (names w.path parts) removes)).look n = some e := by
    have : (w2.apply (.commit e.uuid (names w.path parts) removes)).find n = some e := by
      have h0 : (w2.apply (.commit e.uuid (names w.path parts) removes)).find n = w2.entries.find? fun e => e.name == n := rfl
      rw [h0, hup.entries]
      exact hf
    simp only [World.look, this, hlog]
    simp
  refine (vacuum_lost E hlook hv (by rw [hlog]; simp; omega) (p := q) ?_ ?_).2
  · rw [hlog, List.take_append_of_le_length (by omega), hlive]
    exact hqlive
  · rw [hlog]
    simp only [dead, List.mem_filter, List.flatMap_append, List.flatMap_cons, List.flatMap_nil, List.append_nil, List.mem_append]
    refine ⟨.inr hq, ?_⟩
    rw [live_snoc]
    have hnew : q ∉ names w.path parts := by
      have hge : ∀ (cs : List (List ρ)) (k : Nat), ∀ x ∈ names k cs, k ≤ x := by
        intro cs
        induction cs with
        | nil => intro k x hx; simp [names] at hx
        | cons c cs ih =>
          intro k x hx
          simp only [names, List.mem_cons] at hx
          rcases hx with rfl | hx
          · exact Nat.le_refl _
          · have := ih (k + 1) x hx
            omega
      intro hmem'
      have h1 := hge _ _ _ hmem'
      have h2 : q < w.path := live_lt hgood q hqlive
      omega
    simp [hq, hnew]

/-- Its hypotheses. -/
example : let w := (World.empty.run demo ([.createAs "t" (values [1, 2])].map fun s => (s, .none))).1
    ((w.look "t").map fun e => (touched demo (w.files e.uuid) (· == 2) (live (w.log e.uuid)),
      readAll (w.files e.uuid) (touched demo (w.files e.uuid) (· == 2) (live (w.log e.uuid))))) = some ([0], some [1, 2]) := by decide +kernel

end Seafowl.Database
