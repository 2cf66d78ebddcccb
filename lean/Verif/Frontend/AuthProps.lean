/-
C39: no write without write permission.

The specification speaks about the policy and the `Authorization` header only: which token the
header carries, whether its hash is the configured one.
-/
import Verif.Frontend.Http

set_option linter.unusedSimpArgs false

namespace Seafowl.Front

/-! ### Specification -/

/-- The header carries the token `tok`: one or more `Bearer ` prefixes, then the token. -/
def Carries (header : Option Str) (tok : Str) : Prop :=
  ∃ n, header = some ((List.replicate (n + 1) bearer).flatten ++ tok) ∧ ¬ bearer <+: tok

/-- Writing is open to anyone, or the request carries the write password. -/
def MayWrite (hash : Str → Str) (pol : Policy) (header : Option Str) : Prop :=
  pol.write = .any ∨ ∃ tok sha, Carries header tok ∧ pol.write = .password sha ∧ hash tok = sha

/-- Reading is open to anyone, or the request carries the read or the write password. -/
def MayRead (hash : Str → Str) (pol : Policy) (header : Option Str) : Prop :=
  pol.read = .any ∨ ∃ tok sha, Carries header tok ∧
    (pol.read = .password sha ∨ pol.write = .password sha) ∧ hash tok = sha

/-! ### The header -/

theorem trimBearer_pre (s : Str) : trimBearer (bearer ++ s) = trimBearer s := by
  rw [trimBearer]
  rw [if_pos (List.isPrefixOf_iff_prefix.2 (List.prefix_append _ _))]
  rfl

theorem trimBearer_stop (s : Str) (h : ¬ bearer <+: s) : trimBearer s = s := by
  rw [trimBearer, if_neg]
  intro hp
  exact h (List.isPrefixOf_iff_prefix.1 hp)

theorem trimBearer_rep (n : Nat) (s : Str) (h : ¬ bearer <+: s) :
    trimBearer ((List.replicate n bearer).flatten ++ s) = s := by
  induction n with
  | zero => simpa using trimBearer_stop s h
  | succ n ih =>
    simp only [List.replicate_succ, List.flatten_cons, List.append_assoc]
    rw [trimBearer_pre, ih]

theorem trimBearer_form : ∀ (k : Nat) (s : Str), s.length ≤ k →
    ∃ n, s = (List.replicate n bearer).flatten ++ trimBearer s ∧ ¬ bearer <+: trimBearer s := by
  intro k
  induction k with
  | zero =>
    intro s hs
    have : s = [] := List.eq_nil_of_length_eq_zero (by omega)
    subst this
    have hn : ¬ bearer <+: ([] : Str) := by simp [bearer]
    exact ⟨0, by simp [trimBearer_stop [] hn], by rw [trimBearer_stop [] hn]; exact hn⟩
  | succ k ih =>
    intro s hs
    by_cases h : bearer <+: s
    · obtain ⟨t, ht⟩ := h
      subst ht
      have hl : t.length ≤ k := by simp [bearer] at hs; omega
      obtain ⟨n, h1, h2⟩ := ih t hl
      refine ⟨n + 1, ?_, ?_⟩
      · rw [trimBearer_pre]
        simp only [List.replicate_succ, List.flatten_cons, List.append_assoc]
        rw [← h1]
      · rw [trimBearer_pre]; exact h2
    · exact ⟨0, by simp [trimBearer_stop s h], by rw [trimBearer_stop s h]; exact h⟩

/-- The token used is exactly the one carried. -/
theorem carries_iff (h : Str) (tok : Str) :
    Carries (some h) tok ↔ bearer <+: h ∧ trimBearer h = tok := by
  constructor
  · rintro ⟨n, h1, h2⟩
    injection h1 with h1
    subst h1
    refine ⟨?_, trimBearer_rep _ _ h2⟩
    simp only [List.replicate_succ, List.flatten_cons, List.append_assoc]
    exact List.prefix_append _ _
  · rintro ⟨h1, h2⟩
    obtain ⟨n, h3, h4⟩ := trimBearer_form h.length h (Nat.le_refl _)
    rw [h2] at h3 h4
    cases n with
    | zero =>
      simp at h3
      subst h3
      exact absurd h1 h4
    | succ n => exact ⟨n, by rw [← h3], h4⟩

theorem not_carries_none (tok : Str) : ¬ Carries none tok := by
  rintro ⟨n, h, -⟩; simp at h

theorem header_inv {hash : Str → Str} {header : Option Str} {pol : Policy} {pr : Principal}
    (h : headerToPrincipal hash header pol = .ok pr) :
    (header = none ∧ tokenToPrincipal hash none pol = .ok pr) ∨
    ∃ tok, Carries header tok ∧ tokenToPrincipal hash (some tok) pol = .ok pr := by
  cases header with
  | none => exact .inl ⟨rfl, h⟩
  | some s =>
    unfold headerToPrincipal at h
    simp only at h
    split at h
    · rename_i hp
      exact .inr ⟨_, (carries_iff s _).2 ⟨List.isPrefixOf_iff_prefix.1 hp, rfl⟩, h⟩
    · simp at h

theorem carries_unique {header : Option Str} {a b : Str} (ha : Carries header a)
    (hb : Carries header b) : a = b := by
  cases header with
  | none => exact absurd ha (not_carries_none a)
  | some s => rw [← ((carries_iff s a).1 ha).2, ← ((carries_iff s b).1 hb).2]

/-! ### The decision -/

/-- **C39 (decision, writing).** Once a request is authenticated, it is allowed to write exactly
if the policy lets anyone write or the request carries the write password. -/
theorem C39_write_iff (hash : Str → Str) (pol : Policy) (header : Option Str) (pr : Principal)
    (h : headerToPrincipal hash header pol = .ok pr) :
    canPerform pr .write pol = true ↔ MayWrite hash pol header := by
  obtain ⟨rd, wr⟩ := pol
  rcases header_inv h with ⟨hn, ht⟩ | ⟨tok, hc, ht⟩
  · subst hn
    have hno : ∀ tok, ¬ Carries none tok := not_carries_none
    cases rd <;> cases wr <;> simp [tokenToPrincipal] at ht <;> subst ht <;>
      simp [canPerform, MayWrite, hno]
  · have huniq : ∀ t, Carries header t → t = tok := fun t hcc => carries_unique hcc hc
    have hex : ∀ P : Str → Prop, (∃ t, Carries header t ∧ P t) ↔ P tok := fun P =>
      ⟨fun ⟨t, a, b⟩ => by rw [← huniq t a]; exact b, fun b => ⟨tok, hc, b⟩⟩
    cases rd <;> cases wr <;> simp [tokenToPrincipal] at ht
    all_goals (try split at ht) <;> (try split at ht) <;> (try simp at ht) <;> (try subst ht) <;>
      simp_all [canPerform, MayWrite]

/-- **C39 (decision, reading).** Once a request is authenticated, it is allowed to read exactly if
the policy lets anyone read or the request carries the read or the write password. -/
theorem C39_read_iff (hash : Str → Str) (pol : Policy) (header : Option Str) (pr : Principal)
    (h : headerToPrincipal hash header pol = .ok pr) :
    canPerform pr .read pol = true ↔ MayRead hash pol header := by
  obtain ⟨rd, wr⟩ := pol
  rcases header_inv h with ⟨hn, ht⟩ | ⟨tok, hc, ht⟩
  · subst hn
    have hno : ∀ tok, ¬ Carries none tok := not_carries_none
    cases rd <;> cases wr <;> simp [tokenToPrincipal] at ht <;> subst ht <;>
      simp [canPerform, MayRead, hno]
  · have huniq : ∀ t, Carries header t → t = tok := fun t hcc => carries_unique hcc hc
    have hex : ∀ P : Str → Prop, (∃ t, Carries header t ∧ P t) ↔ P tok := fun P =>
      ⟨fun ⟨t, a, b⟩ => by rw [← huniq t a]; exact b, fun b => ⟨tok, hc, b⟩⟩
    cases rd <;> cases wr <;> simp [tokenToPrincipal] at ht
    all_goals (try split at ht) <;> (try split at ht) <;> (try simp at ht) <;> (try subst ht) <;>
      simp_all [canPerform, MayRead]

/-- **C39 (completeness).** The write password always authenticates as a writer, and the read
password as a reader, if it is not the write password too. -/
theorem C39_password_works (hash : Str → Str) (pol : Policy) (header : Option Str) (tok sha : Str)
    (hc : Carries header tok) (hs : hash tok = sha) :
    (pol.write = .password sha → headerToPrincipal hash header pol = .ok .writer) ∧
    (pol.read = .password sha → pol.write ≠ .password sha →
      headerToPrincipal hash header pol = .ok .reader) := by
  obtain ⟨rd, wr⟩ := pol
  cases header with
  | none => exact absurd hc (not_carries_none tok)
  | some h =>
    obtain ⟨h1, h2⟩ := (carries_iff h tok).1 hc
    have hp : bearer.isPrefixOf h = true := List.isPrefixOf_iff_prefix.2 h1
    constructor
    · rintro rfl
      cases rd <;> simp [headerToPrincipal, hp, h2, tokenToPrincipal, hs]
    · rintro rfl hne
      cases wr <;> simp [headerToPrincipal, hp, h2, tokenToPrincipal, hs]
      rename_i w
      intro hw
      subst hw
      exact absurd rfl hne

/-- The access setting asks for the password with this hash. -/
def AsksFor (a : Access) (sha : Str) : Prop := a = .password sha

/-- **C39 (rejection).** Which requests are turned away before anything is executed, and why: without a
header exactly those that nothing is open to; with a header that is not of the form `Bearer token` all;
with a token exactly those whose token is not one of the configured passwords. -/
theorem C39_rejected_iff (hash : Str → Str) (pol : Policy) (header : Option Str) (e : ApiError) :
    headerToPrincipal hash header pol = .error e ↔
      (header = none ∧ pol.read ≠ .any ∧ pol.write ≠ .any ∧ e = .needAccessToken) ∨
      (∃ h, header = some h ∧ ¬ bearer <+: h ∧ e = .invalidAuthorizationHeader) ∨
      ∃ tok, Carries header tok ∧
        (¬ AsksFor pol.read (hash tok) ∧ ¬ AsksFor pol.write (hash tok)) ∧
        (((∃ s, AsksFor pol.read s) ∨ (∃ s, AsksFor pol.write s)) ∧ e = .wrongAccessToken ∨
          ¬ ((∃ s, AsksFor pol.read s) ∨ (∃ s, AsksFor pol.write s)) ∧ e = .uselessAccessToken) := by
  obtain ⟨rd, wr⟩ := pol
  cases header with
  | none =>
    have hno : ∀ tok, ¬ Carries none tok := not_carries_none
    cases rd <;> cases wr <;> simp [headerToPrincipal, tokenToPrincipal, hno, eq_comm]
  | some h =>
    by_cases hp : bearer <+: h
    · have hb : bearer.isPrefixOf h = true := List.isPrefixOf_iff_prefix.2 hp
      have hc : Carries (some h) (trimBearer h) := (carries_iff h _).2 ⟨hp, rfl⟩
      have hex : ∀ P : Str → Prop, (∃ t, Carries (some h) t ∧ P t) ↔ P (trimBearer h) := fun P =>
        ⟨fun ⟨t, a, b⟩ => by rw [carries_unique hc a]; exact b, fun b => ⟨_, hc, b⟩⟩
      rw [hex]
      generalize trimBearer h = tok at *
      have ht : headerToPrincipal hash (some h) ⟨rd, wr⟩ = tokenToPrincipal hash (some tok) ⟨rd, wr⟩ := by
        simp only [headerToPrincipal, hb, if_true]
        rw [((carries_iff h tok).1 hc).2]
      rw [ht]
      have e1 : (∃ h', some h = some h' ∧ ¬ bearer <+: h' ∧ e = .invalidAuthorizationHeader) ↔ False := by
        simp [hp]
      rw [e1]
      have sw : ∀ a : ApiError, (Except.error a : Except ApiError Principal) = .error e ↔ e = a := fun a => by
        simp only [Except.error.injEq]
        exact eq_comm
      have sn : ∀ p : Principal, ((.ok p : Except ApiError Principal) = .error e) ↔ False := fun p => by simp
      have sp : ∀ a b : Str, Access.password a = Access.password b ↔ b = a := fun a b => by
        simp only [Access.password.injEq]
        exact eq_comm
      cases rd <;> cases wr <;> simp only [tokenToPrincipal, AsksFor, sp] <;>
        (try split) <;> (try split) <;> simp only [sw, sn] <;> simp [*]
    · have hb : bearer.isPrefixOf h = false := by
        rw [Bool.eq_false_iff]
        exact fun hb => hp (List.isPrefixOf_iff_prefix.1 hb)
      have hno : ∀ tok, ¬ Carries (some h) tok := fun tok hc => hp ((carries_iff h tok).1 hc).1
      simp [headerToPrincipal, hb, hno, hp]
      exact eq_comm

/-- A policy with both passwords; `x` is the write password, `y` the read password. -/
example :
    let hash : Str → Str := fun t => '#' :: t
    let pol : Policy := ⟨.password ['#', 'y'], .password ['#', 'x']⟩
    headerToPrincipal hash (some (bearer ++ ['x'])) pol = .ok .writer ∧
    headerToPrincipal hash (some (bearer ++ ['y'])) pol = .ok .reader ∧
    canPerform .reader .write pol = false ∧
    headerToPrincipal hash (some (bearer ++ ['z'])) pol = .error .wrongAccessToken ∧
    headerToPrincipal hash none pol = .error .needAccessToken ∧
    headerToPrincipal hash (some ['x']) pol = .error .invalidAuthorizationHeader := by
  have t : ∀ c, trimBearer (bearer ++ [c]) = [c] := fun c => by
    rw [trimBearer_pre, trimBearer_stop _ (by simp [bearer, List.prefix_iff_eq_take])]
  have pf : ∀ c, bearer.isPrefixOf (bearer ++ [c]) = true := fun c =>
    List.isPrefixOf_iff_prefix.2 (List.prefix_append _ _)
  refine ⟨?_, ?_, rfl, ?_, rfl, rfl⟩ <;>
    simp [headerToPrincipal, pf, t, tokenToPrincipal]

/-- The two sides of `C39_write_iff` for that policy. -/
example : MayWrite (fun t => '#' :: t) ⟨.password ['#', 'y'], .password ['#', 'x']⟩
    (some (bearer ++ ['x'])) :=
  .inr ⟨['x'], ['#', 'x'], ⟨0, rfl, by simp [bearer, List.prefix_iff_eq_take]⟩, rfl, rfl⟩

end Seafowl.Front
