/-
C48: the SQL text of a pushed-down filter means the filter.
-/
import Verif.Remote.Pushdown

set_option linter.unusedSimpArgs false

namespace Seafowl.Remote

/-! ### What the visitor produces -/

mutual
/-- The text of an expression. -/
def render (d : Dialect) : Expr → Sql
  | .atom a => [.atom a]
  | .bin o a b =>
    wrap (parens o a) (render d a) ++ .op ((opToSql d o).getD "") :: wrap (parens o b) (render d b)
  | .not a => .not :: render d a
  | .neg a => .lp :: .op "-" :: render d a ++ [.rp]
  | .is k a => render d a ++ [.is k]
  | .inList a xs n => render d a ++ .inn n :: .lp :: joinSql (renderAll d xs) ++ [.rp]
  | .unsupported _ => []

def renderAll (d : Dialect) : Exprs → List Sql
  | .nil => []
  | .cons x xs => render d x :: renderAll d xs
end

mutual
/-- Can the whole expression be shipped? -/
def ship (d : Dialect) : Expr → Bool
  | .atom (.tzTimestamp _) => false
  | .atom _ => true
  | .bin o a b => (opToSql d o).isSome && ship d a && ship d b
  | .not a => ship d a
  | .neg a => ship d a
  | .is _ a => ship d a
  | .inList a xs _ => ship d a && shipAll d xs
  | .unsupported _ => false

def shipAll (d : Dialect) : Exprs → Bool
  | .nil => true
  | .cons x xs => ship d x && shipAll d xs
end

theorem length_renderAll (d : Dialect) : ∀ xs : Exprs, (renderAll d xs).length = xs.length
  | .nil => rfl
  | .cons x xs => by simp [renderAll, Exprs.length, length_renderAll d xs]

mutual
theorem visit_eq (d : Dialect) : ∀ (e : Expr) (st : List Sql),
    visit d e st = if ship d e then some (render d e :: st) else none
  | .atom a, st => by
    cases a <;> simp [visit, fDown, fUp, ship, render]
  | .bin o a b, st => by
    rcases Option.eq_none_or_eq_some (opToSql d o) with ho | ⟨t, ho⟩
    · simp [visit, fDown, ship, ho]
    · simp only [visit, fDown, ho, Option.isSome_some, Bool.not_true, Bool.false_eq_true, if_false]
      rw [visit_eq d a st]
      cases ha : ship d a with
      | false => simp [ship, ho, ha]
      | true =>
        simp only [if_true, Option.bind_some]
        rw [visit_eq d b]
        cases hb : ship d b with
        | false => simp [ship, ho, ha, hb]
        | true => simp [ship, ho, ha, hb, fUp, render]
  | .not a, st => by
    simp only [visit, fDown, Bool.not_true, Bool.false_eq_true, if_false]
    rw [visit_eq d a st]
    cases ha : ship d a <;> simp [ship, ha, fUp, render]
  | .neg a, st => by
    simp only [visit, fDown, Bool.not_true, Bool.false_eq_true, if_false]
    rw [visit_eq d a st]
    cases ha : ship d a <;> simp [ship, ha, fUp, render]
  | .is k a, st => by
    simp only [visit, fDown, Bool.not_true, Bool.false_eq_true, if_false]
    rw [visit_eq d a st]
    cases ha : ship d a <;> simp [ship, ha, fUp, render]
  | .inList a xs n, st => by
    simp only [visit, fDown, Bool.not_true, Bool.false_eq_true, if_false]
    rw [visit_eq d a st]
    cases ha : ship d a with
    | false => simp [ship, ha]
    | true =>
      simp only [if_true, Option.bind_some]
      rw [visitAll_eq d xs]
      cases hx : shipAll d xs with
      | false => simp [ship, ha, hx]
      | true =>
        have hl : (renderAll d xs).reverse.length = xs.length := by
          rw [List.length_reverse, length_renderAll]
        simp only [if_true, Option.bind_some, fUp, ship, ha, hx, Bool.and_self]
        rw [if_neg (by rw [List.length_append, hl]; omega)]
        rw [← hl, List.drop_left, List.take_left, List.reverse_reverse]
        simp [render]
  | .unsupported n, st => by simp [visit, fDown, ship]

theorem visitAll_eq (d : Dialect) : ∀ (xs : Exprs) (st : List Sql),
    visitAll d xs st = if shipAll d xs then some ((renderAll d xs).reverse ++ st) else none
  | .nil, st => by simp [visitAll, shipAll, renderAll]
  | .cons x xs, st => by
    simp only [visitAll]
    rw [visit_eq d x st]
    cases hx : ship d x with
    | false => simp [shipAll, hx]
    | true =>
      simp only [if_true, Option.bind_some]
      rw [visitAll_eq d xs]
      cases hxs : shipAll d xs with
      | false => simp [shipAll, hx, hxs]
      | true => simp [shipAll, hx, hxs, renderAll]
end

/-- **C48 (the visitor).** The stack discipline never fails: a filter is either rejected because
some part of it cannot be shipped, or exactly one text results. -/
theorem C48_visitor (d : Dialect) (e : Expr) :
    filterToSql d e = if ship d e then some (render d e) else none := by
  unfold filterToSql
  rw [visit_eq]
  cases ship d e <;> simp

/-! ### Fuel -/

theorem parse_mono (d : Dialect) : ∀ f,
    (∀ min toks r, parseE d f min toks = some r → parseE d (f + 1) min toks = some r) ∧
    (∀ min lhs toks r, parseRest d f min lhs toks = some r →
      parseRest d (f + 1) min lhs toks = some r) ∧
    (∀ toks r, parseItems d f toks = some r → parseItems d (f + 1) toks = some r) := by
  intro f
  induction f with
  | zero =>
    refine ⟨?_, ?_, ?_⟩
    · intro min toks r h; simp [parseE] at h
    · intro min lhs toks r h; simp [parseRest] at h
    · intro toks r h; simp [parseItems] at h
  | succ f ih =>
    obtain ⟨ih1, ih2, ih3⟩ := ih
    refine ⟨?_, ?_, ?_⟩
    · intro min toks r h
      unfold parseE at h ⊢
      split at h
      · exact ih2 _ _ _ _ h
      · split at h
        · rename_i heq
          rw [ih1 _ _ _ heq]
          exact ih2 _ _ _ _ h
        · simp at h
      · split at h
        · simp at h
        · rename_i hm
          simp only [hm, if_false]
          split at h
          · rename_i heq
            rw [ih1 _ _ _ heq]
            exact ih2 _ _ _ _ h
          · simp at h
      · split at h
        · rename_i hm
          simp only [hm, if_true]
          split at h
          · rename_i heq
            rw [ih1 _ _ _ heq]
            exact ih2 _ _ _ _ h
          · simp at h
        · simp at h
      · simp at h
    · intro min lhs toks r h
      unfold parseRest at h ⊢
      split at h
      · cases ho : readOp d _ with
        | none => rw [ho] at h; simp at h
        | some o =>
          rw [ho] at h
          simp only at h ⊢
          split at h
          · rename_i hm; rw [if_pos hm]; exact h
          · rename_i hm
            rw [if_neg hm]
            split at h
            · rename_i heq
              rw [ih1 _ _ _ heq]
              exact ih2 _ _ _ _ h
            · simp at h
      · split at h
        · rename_i hm; rw [if_pos hm]; exact h
        · rename_i hm; rw [if_neg hm]; exact ih2 _ _ _ _ h
      · split at h
        · rename_i hm; rw [if_pos hm]; exact h
        · rename_i hm
          rw [if_neg hm]
          split at h
          · rename_i heq
            rw [ih3 _ _ heq]
            exact ih2 _ _ _ _ h
          · simp at h
      · exact h
    · intro toks r h
      unfold parseItems at h ⊢
      split at h
      · rename_i heq
        rw [ih1 _ _ _ heq]
        exact h
      · rename_i heq
        rw [ih1 _ _ _ heq]
        split at h
        · rename_i heq2
          simp only
          rw [ih3 _ _ heq2]
          exact h
        · simp at h
      · simp at h

theorem parseE_le {d : Dialect} {f g min : Nat} {toks : Sql} {r : Expr × Sql} (hfg : f ≤ g)
    (h : parseE d f min toks = some r) : parseE d g min toks = some r := by
  induction hfg with
  | refl => exact h
  | step _ ih => exact (parse_mono d _).1 _ _ _ ih

theorem parseRest_le {d : Dialect} {f g min : Nat} {lhs : Expr} {toks : Sql} {r : Expr × Sql}
    (hfg : f ≤ g) (h : parseRest d f min lhs toks = some r) :
    parseRest d g min lhs toks = some r := by
  induction hfg with
  | refl => exact h
  | step _ ih => exact (parse_mono d _).2.1 _ _ _ _ ih

theorem parseItems_le {d : Dialect} {f g : Nat} {toks : Sql} {r : Exprs × Sql}
    (hfg : f ≤ g) (h : parseItems d f toks = some r) : parseItems d g toks = some r := by
  induction hfg with
  | refl => exact h
  | step _ ih => exact (parse_mono d _).2.2 _ _ ih

/-- A text has at most one reading. -/
theorem Reads.unique {d : Dialect} {s : Sql} {e e' : Expr} (h : Reads d s e) (h' : Reads d s e') :
    e = e' := by
  obtain ⟨f, hf⟩ := h
  obtain ⟨g, hg⟩ := h'
  have h1 := parseE_le (Nat.le_max_left f g) hf
  have h2 := parseE_le (Nat.le_max_right f g) hg
  rw [h1] at h2
  injection h2 with h2
  exact congrArg Prod.fst h2

/-! ### Reading back -/

/-- How strongly the outermost construct of the (unparenthesised) text binds. -/
def lvl (d : Dialect) : Expr → Nat
  | .bin o _ _ => (prec d).bp o
  | .not _ => (prec d).notBp
  | .is _ _ => (prec d).isBp
  | .inList _ _ _ => (prec d).inBp
  | _ => 100

/-- In PostgreSQL `a < b < c` is a syntax error (which `parseRest` does not model), and so is the
same with other comparisons and `IS DISTINCT FROM`. -/
def nonassoc (d : Dialect) (o : Op) : Bool :=
  d == .postgres && ((prec d).bp o == 4 || (prec d).bp o == 5)

/-- What a left operand without parentheses must bind at least as tightly as. -/
def leftBp (d : Dialect) (o : Op) : Nat := if nonassoc d o then (prec d).bp o + 1 else (prec d).bp o

theorem bp_le_leftBp (d : Dialect) (o : Op) : (prec d).bp o ≤ leftBp d o := by
  unfold leftBp; split <;> omega

mutual
/-- No operand that stands without parentheses binds weaker than its context, and the remote
database understands the operators as meant. -/
def Safe (d : Dialect) : Expr → Prop
  | .atom _ => True
  | .bin o a b =>
    readOp d ((opToSql d o).getD "") = some o ∧
    (parens o a = false → leftBp d o ≤ lvl d a) ∧
    (parens o b = false → (prec d).bp o < lvl d b) ∧ Safe d a ∧ Safe d b
  | .not a => (prec d).notBp ≤ lvl d a ∧ Safe d a
  | .neg a => negBp ≤ lvl d a ∧ Safe d a
  | .is _ a => (prec d).isBp ≤ lvl d a ∧ Safe d a
  | .inList a xs _ => (prec d).inBp ≤ lvl d a ∧ Safe d a ∧ SafeAll d xs
  | .unsupported _ => False

/-- The same for a list, which must not be empty. -/
def SafeAll (d : Dialect) : Exprs → Prop
  | .nil => False
  | .cons x .nil => Safe d x
  | .cons x xs => Safe d x ∧ SafeAll d xs
end

/-- How strongly the operator at the head of the text binds, if there is one. -/
def headBp (d : Dialect) : Sql → Option Nat
  | .op t :: _ => some ((readOp d t).elim 1000 (prec d).bp)
  | .is _ :: _ => some (prec d).isBp
  | .inn _ :: _ => some (prec d).inBp
  | _ => none

/-- What follows the text of an expression does not take away its last operand. -/
def Follows (d : Dialect) (e : Expr) (rest : Sql) : Prop :=
  ∀ p, headBp d rest = some p →
    match e with
    | .bin o _ _ => p ≤ (prec d).bp o
    | .not _ => p < (prec d).notBp
    | _ => True

/-- The operators binding at least as tightly as `min` end here. -/
def Stops (d : Dialect) (min : Nat) (rest : Sql) : Prop := ∀ p, headBp d rest = some p → p < min

theorem notBp_ne (d : Dialect) : (∀ o, (prec d).bp o ≠ (prec d).notBp) ∧
    (prec d).notBp < (prec d).isBp ∧ (prec d).notBp < (prec d).inBp ∧
    (∀ o, (prec d).bp o < negBp) ∧ (prec d).isBp < negBp ∧ (prec d).inBp < negBp ∧
    (prec d).notBp < negBp := by
  refine ⟨?_, ?_, ?_, ?_, ?_, ?_, ?_⟩
  · intro o; cases d <;> cases o <;> decide
  · cases d <;> decide
  · cases d <;> decide
  · intro o; cases d <;> cases o <;> decide
  · cases d <;> decide
  · cases d <;> decide
  · cases d <;> decide

theorem parseRest_stop (d : Dialect) (f min : Nat) (lhs : Expr) (rest : Sql)
    (h : Stops d min rest) (hmin : min ≤ 1000) :
    parseRest d (f + 1) min lhs rest = some (lhs, rest) := by
  unfold parseRest
  split
  · rename_i t r
    have := h _ rfl
    cases ho : readOp d t with
    | none => simp [ho] at this; omega
    | some o =>
      simp only [ho, Option.elim_some] at this
      simp only
      rw [if_pos this]
  · rename_i k r
    have := h _ rfl
    rw [if_pos this]
  · rename_i n r
    have := h _ rfl
    rw [if_pos this]
  · rfl

theorem lvl_le (d : Dialect) (e : Expr) : lvl d e ≤ 100 := by
  have hb : ∀ o, (prec d).bp o ≤ 100 := fun o => by
    have := (notBp_ne d).2.2.2.1 o; unfold negBp at this; omega
  have := (notBp_ne d).2.2.2.2
  unfold negBp at this
  cases e <;> simp [lvl, hb] <;> omega

/-- The statement proved by induction: after the text of `e`, the parser goes on with `e` as its
left operand. -/
def Back (d : Dialect) (e : Expr) : Prop :=
  ∀ (min : Nat) (rest : Sql) (r : Expr × Sql), min ≤ lvl d e → Follows d e rest →
    (∃ f, parseRest d f min e rest = some r) → ∃ f, parseE d f min (render d e ++ rest) = some r

theorem back_closed {d : Dialect} {e : Expr} (h : Back d e) (min : Nat) (rest : Sql)
    (hmin : min ≤ lvl d e) (hf : Follows d e rest) (hs : Stops d min rest) :
    ∃ f, parseE d f min (render d e ++ rest) = some (e, rest) :=
  h min rest (e, rest) hmin hf
    ⟨1, parseRest_stop d 0 min e rest hs (by have := lvl_le d e; omega)⟩

theorem follows_rp (d : Dialect) (e : Expr) (rest : Sql) : Follows d e (.rp :: rest) := by
  intro p hp; simp [headBp] at hp

theorem follows_comma (d : Dialect) (e : Expr) (rest : Sql) : Follows d e (.comma :: rest) := by
  intro p hp; simp [headBp] at hp

theorem back_wrapped {d : Dialect} {e : Expr} (h : Back d e) (min : Nat) (rest : Sql)
    (r : Expr × Sql) (hr : ∃ f, parseRest d f min e rest = some r) :
    ∃ f, parseE d f min (.lp :: render d e ++ [.rp] ++ rest) = some r := by
  obtain ⟨f1, h1⟩ := back_closed h 0 (.rp :: rest) (Nat.zero_le _) (follows_rp d e rest)
    (by intro p hp; simp [headBp] at hp)
  obtain ⟨f2, h2⟩ := hr
  refine ⟨max f1 f2 + 1, ?_⟩
  have e1 : (Tok.lp :: render d e ++ [Tok.rp] ++ rest) = Tok.lp :: (render d e ++ Tok.rp :: rest) := by
    simp
  rw [e1]
  simp only [parseE, parseE_le (Nat.le_max_left f1 f2) h1]
  exact parseRest_le (Nat.le_max_right f1 f2) h2

/-- The right operand of a binary operator, with or without parentheses. -/
theorem back_right {d : Dialect} {e : Expr} (h : Back d e) (b : Bool) (p : Nat) (rest : Sql)
    (hp : p < 100) (hl : b = false → p < lvl d e)
    (hrest : ∀ q, headBp d rest = some q → q ≤ p) :
    ∃ f, parseE d f (p + 1) (wrap b (render d e) ++ rest) = some (e, rest) := by
  have hstop : Stops d (p + 1) rest := fun q hq => by have := hrest q hq; omega
  cases b with
  | true =>
    simp only [wrap, if_true]
    exact back_wrapped h (p + 1) rest (e, rest)
      ⟨1, parseRest_stop d 0 _ e rest hstop (by omega)⟩
  | false =>
    simp only [wrap, Bool.false_eq_true, if_false]
    have hlt := hl rfl
    refine back_closed h (p + 1) rest (by omega) ?_ hstop
    intro q hq
    have := hrest q hq
    cases e with
    | bin o a b => simp only [lvl] at hlt; simp only; omega
    | not a => simp only [lvl] at hlt; simp only; omega
    | _ => trivial

mutual
theorem back (d : Dialect) : ∀ e : Expr, Safe d e → Back d e
  | .atom a, _ => by
    rintro min rest r _ _ ⟨f, h⟩
    exact ⟨f + 1, by simpa [render, parseE] using h⟩
  | .bin o a b, hs => by
    simp only [Safe] at hs
    obtain ⟨ho, hla, hlb, hsa, hsb⟩ := hs
    have ha := back d a hsa
    have hb := back d b hsb
    rintro min rest r hmin hf ⟨f, hr⟩
    simp only [lvl] at hmin
    have hF : ∀ q, headBp d rest = some q → q ≤ (prec d).bp o := fun q hq => hf q hq
    obtain ⟨f1, h1⟩ := back_right hb (parens o b) ((prec d).bp o) rest
      (by have := (notBp_ne d).2.2.2.1 o; unfold negBp at this; omega) hlb hF
    -- the operator and the right operand after the left one
    have hop : ∃ g, parseRest d g min a
        (.op ((opToSql d o).getD "") :: (wrap (parens o b) (render d b) ++ rest)) = some r := by
      refine ⟨max f f1 + 1, ?_⟩
      simp only [parseRest, ho]
      rw [if_neg (by omega), parseE_le (Nat.le_max_right f f1) h1]
      exact parseRest_le (Nat.le_max_left f f1) hr
    have e1 : render d (.bin o a b) ++ rest = wrap (parens o a) (render d a) ++
        (.op ((opToSql d o).getD "") :: (wrap (parens o b) (render d b) ++ rest)) := by
      simp [render]
    rw [e1]
    cases hpa : parens o a with
    | true =>
      simp only [wrap, if_true]
      exact back_wrapped ha min _ r hop
    | false =>
      simp only [wrap, Bool.false_eq_true, if_false]
      have hle := Nat.le_trans (bp_le_leftBp d o) (hla hpa)
      refine ha min _ r (by omega) ?_ hop
      intro q hq
      simp only [headBp, ho, Option.elim_some, Option.some.injEq] at hq
      subst hq
      cases a with
      | bin o' a' b' => exact hle
      | not a' =>
        simp only [lvl] at hle
        have := (notBp_ne d).1 o
        simp only; omega
      | _ => trivial
  | .not a, hs => by
    simp only [Safe] at hs
    have ha := back d a hs.2
    rintro min rest r hmin hf ⟨f, hr⟩
    simp only [lvl] at hmin
    have hF : ∀ q, headBp d rest = some q → q < (prec d).notBp := fun q hq => hf q hq
    have hfa : Follows d a rest := by
      intro q hq
      have h1 := hF q hq
      have h2 := hs.1
      cases a with
      | bin o' a' b' => simp only [lvl] at h2; simp only; omega
      | not a' => exact h1
      | _ => trivial
    obtain ⟨f1, h1⟩ := back_closed ha _ rest hs.1 hfa (fun q hq => hF q hq)
    refine ⟨max f f1 + 1, ?_⟩
    simp only [render, List.cons_append, parseE]
    rw [if_neg (by omega), parseE_le (Nat.le_max_right f f1) h1]
    exact parseRest_le (Nat.le_max_left f f1) hr
  | .neg a, hs => by
    simp only [Safe] at hs
    have ha := back d a hs.2
    rintro min rest r hmin hf ⟨f, hr⟩
    have hfa : Follows d a (.rp :: rest) := follows_rp d a rest
    obtain ⟨f1, h1⟩ := back_closed ha negBp (.rp :: rest) hs.1 hfa
      (by intro q hq; simp [headBp] at hq)
    refine ⟨max (f + 1) (f1 + 2) + 2, ?_⟩
    have e1 : render d (.neg a) ++ rest =
        .lp :: (.op "-" :: (render d a ++ .rp :: rest)) := by simp [render]
    rw [e1]
    have h2 : parseE d (max (f + 1) (f1 + 2) + 1) 0 (.op "-" :: (render d a ++ .rp :: rest)) =
        some (.neg a, .rp :: rest) := by
      simp only [parseE, if_true]
      rw [parseE_le (by omega) h1]
      simp only
      have : max (f + 1) (f1 + 2) = (max (f + 1) (f1 + 2) - 1) + 1 := by omega
      rw [this]
      exact parseRest_stop d _ 0 _ _ (by intro q hq; simp [headBp] at hq) (by omega)
    have hunf : parseE d (max (f + 1) (f1 + 2) + 1 + 1) min
        (.lp :: (.op "-" :: (render d a ++ .rp :: rest))) =
        parseRest d (max (f + 1) (f1 + 2) + 1) min (.neg a) rest := by
      rw [parseE]
      rw [h2]
    rw [hunf]
    exact parseRest_le (by omega) hr
  | .is k a, hs => by
    simp only [Safe] at hs
    have ha := back d a hs.2
    rintro min rest r hmin hf ⟨f, hr⟩
    simp only [lvl] at hmin
    have e1 : render d (.is k a) ++ rest = render d a ++ (.is k :: rest) := by simp [render]
    rw [e1]
    refine ha min _ r (by have := hs.1; omega) ?_ ⟨f + 1, ?_⟩
    · intro q hq
      simp only [headBp, Option.some.injEq] at hq
      subst hq
      have h2 := hs.1
      cases a with
      | bin o' a' b' => exact h2
      | not a' =>
        have h3 := (notBp_ne d).2.1
        simp only [lvl] at h2
        simp only; omega
      | _ => trivial
    · simp only [parseRest]
      rw [if_neg (by omega)]
      exact hr
  | .inList a xs n, hs => by
    simp only [Safe] at hs
    have ha := back d a hs.2.1
    rintro min rest r hmin hf ⟨f, hr⟩
    simp only [lvl] at hmin
    have e1 : render d (.inList a xs n) ++ rest =
        render d a ++ (.inn n :: .lp :: (joinSql (renderAll d xs) ++ .rp :: rest)) := by
      simp [render]
    rw [e1]
    obtain ⟨f1, h1⟩ := backAll d xs hs.2.2 rest
    refine ha min _ r (by have := hs.1; omega) ?_ ⟨max f f1 + 1, ?_⟩
    · intro q hq
      simp only [headBp, Option.some.injEq] at hq
      subst hq
      have h2 := hs.1
      cases a with
      | bin o' a' b' => exact h2
      | not a' =>
        have h3 := (notBp_ne d).2.2.1
        simp only [lvl] at h2
        simp only; omega
      | _ => trivial
    · simp only [parseRest]
      rw [if_neg (by omega), parseItems_le (Nat.le_max_right f f1) h1]
      exact parseRest_le (Nat.le_max_left f f1) hr
  | .unsupported n, hs => by simp [Safe] at hs

theorem backAll (d : Dialect) : ∀ xs : Exprs, SafeAll d xs → ∀ rest,
    ∃ f, parseItems d f (joinSql (renderAll d xs) ++ .rp :: rest) = some (xs, rest)
  | .nil, hs => by simp [SafeAll] at hs
  | .cons x .nil, hs => by
    intro rest
    simp only [SafeAll] at hs
    have hx := back d x hs
    obtain ⟨f1, h1⟩ := back_closed hx 0 (.rp :: rest) (Nat.zero_le _) (follows_rp d x rest)
      (by intro q hq; simp [headBp] at hq)
    refine ⟨f1 + 1, ?_⟩
    simp only [renderAll, joinSql, parseItems, h1]
  | .cons x (.cons y ys), hs => by
    intro rest
    simp only [SafeAll] at hs
    have hx := back d x hs.1
    have hs2 : SafeAll d (.cons y ys) := by simpa only [SafeAll] using hs.2
    obtain ⟨f2, h2⟩ := backAll d (.cons y ys) hs2 rest
    obtain ⟨f1, h1⟩ := back_closed hx 0
      (.comma :: (joinSql (renderAll d (.cons y ys)) ++ .rp :: rest)) (Nat.zero_le _)
      (follows_comma d x _) (by intro q hq; simp [headBp] at hq)
    refine ⟨max f1 f2 + 1, ?_⟩
    have e1 : joinSql (renderAll d (.cons x (.cons y ys))) ++ .rp :: rest =
        render d x ++ (.comma :: (joinSql (renderAll d (.cons y ys)) ++ .rp :: rest)) := by
      simp [renderAll, joinSql]
    rw [e1]
    simp only [parseItems, parseE_le (Nat.le_max_left f1 f2) h1,
      parseItems_le (Nat.le_max_right f1 f2) h2]
end

/-- The text of a safe expression is read back as that expression. -/
theorem reads_safe (d : Dialect) (e : Expr) (h : Safe d e) : Reads d (render d e) e := by
  have := back_closed (back d e h) 0 [] (Nat.zero_le _)
    (by intro q hq; simp [headBp] at hq) (by intro q hq; simp [headBp] at hq)
  simpa [Reads] using this

/-! ### Associativity of AND and OR -/

/-- What the constructs mean; `bin`, `not`, … may be those of the remote database. -/
structure Alg (V : Type) where
  atom : Atom → V
  bin : Op → V → V → V
  not : V → V
  neg : V → V
  is : IsKind → V → V
  inList : V → List V → Bool → V
  unsupported : Nat → V

mutual
def Alg.eval (A : Alg V) : Expr → V
  | .atom a => A.atom a
  | .bin o a b => A.bin o (A.eval a) (A.eval b)
  | .not a => A.not (A.eval a)
  | .neg a => A.neg (A.eval a)
  | .is k a => A.is k (A.eval a)
  | .inList a xs n => A.inList (A.eval a) (A.evalAll xs) n
  | .unsupported n => A.unsupported n

def Alg.evalAll (A : Alg V) : Exprs → List V
  | .nil => []
  | .cons x xs => A.eval x :: A.evalAll xs
end

/-- AND and OR are associative. -/
def Alg.Assoc (A : Alg V) : Prop :=
  ∀ o, (o = .and ∨ o = .or) → ∀ x y z, A.bin o (A.bin o x y) z = A.bin o x (A.bin o y z)

/-- `x o y` as a chain nested to the left. -/
def joinL (o : Op) (x : Expr) : Expr → Expr
  | .bin o' y z => if o' = o then .bin o (joinL o x y) z else .bin o x (.bin o' y z)
  | y => .bin o x y

mutual
/-- Chains of AND and OR, nested to the left. -/
def norm : Expr → Expr
  | .bin o a b => if o = .and ∨ o = .or then joinL o (norm a) (norm b) else .bin o (norm a) (norm b)
  | .not a => .not (norm a)
  | .neg a => .neg (norm a)
  | .is k a => .is k (norm a)
  | .inList a xs n => .inList (norm a) (normAll xs) n
  | .atom a => .atom a
  | .unsupported n => .unsupported n

def normAll : Exprs → Exprs
  | .nil => .nil
  | .cons x xs => .cons (norm x) (normAll xs)
end

theorem joinL_shape (o : Op) (x y : Expr) : ∃ a b, joinL o x y = .bin o a b := by
  unfold joinL
  split
  · split
    · exact ⟨_, _, rfl⟩
    · exact ⟨_, _, rfl⟩
  · exact ⟨_, _, rfl⟩

theorem joinL_eval (A : Alg V) (hA : A.Assoc) (o : Op) (ho : o = .and ∨ o = .or) (x : Expr) :
    ∀ y, A.eval (joinL o x y) = A.bin o (A.eval x) (A.eval y)
  | .bin o' y z => by
    unfold joinL
    split
    · rename_i h
      subst h
      simp only [Alg.eval]
      rw [joinL_eval A hA o' ho x y, hA o' ho]
    · simp [Alg.eval]
  | .atom _ => by simp [joinL, Alg.eval]
  | .not _ => by simp [joinL, Alg.eval]
  | .neg _ => by simp [joinL, Alg.eval]
  | .is _ _ => by simp [joinL, Alg.eval]
  | .inList _ _ _ => by simp [joinL, Alg.eval]
  | .unsupported _ => by simp [joinL, Alg.eval]

mutual
theorem norm_eval (A : Alg V) (hA : A.Assoc) : ∀ e, A.eval (norm e) = A.eval e
  | .bin o a b => by
    unfold norm
    split
    · rename_i ho
      rw [joinL_eval A hA o ho, norm_eval A hA a, norm_eval A hA b]
      simp [Alg.eval]
    · simp [Alg.eval, norm_eval A hA a, norm_eval A hA b]
  | .not a => by simp [norm, Alg.eval, norm_eval A hA a]
  | .neg a => by simp [norm, Alg.eval, norm_eval A hA a]
  | .is k a => by simp [norm, Alg.eval, norm_eval A hA a]
  | .inList a xs n => by simp [norm, Alg.eval, norm_eval A hA a, normAll_eval A hA xs]
  | .atom _ => by simp [norm]
  | .unsupported _ => by simp [norm]

theorem normAll_eval (A : Alg V) (hA : A.Assoc) : ∀ xs, A.evalAll (normAll xs) = A.evalAll xs
  | .nil => by simp [normAll]
  | .cons x xs => by simp [normAll, Alg.evalAll, norm_eval A hA x, normAll_eval A hA xs]
end

/-- The outermost operator. -/
def top : Expr → Option Op
  | .bin o _ _ => some o
  | _ => none

theorem parens_top (o : Op) (e : Expr) :
    parens o e = (top e).elim false (fun oc => oc.prec == 0 || decide (oc.prec < o.prec)) := by
  cases e <;> rfl

theorem top_norm (e : Expr) : top (norm e) = top e := by
  cases e with
  | bin o a b =>
    unfold norm
    split
    · obtain ⟨x, y, h⟩ := joinL_shape o (norm a) (norm b)
      rw [h]; rfl
    · rfl
  | _ => simp [norm, top]

theorem parens_norm (o : Op) (e : Expr) : parens o (norm e) = parens o e := by
  rw [parens_top, parens_top, top_norm]

theorem parens_self (o : Op) (ho : o = .and ∨ o = .or) (a b : Expr) :
    parens o (.bin o a b) = false := by
  rcases ho with rfl | rfl <;> simp [parens, Op.prec]

theorem joinL_render (d : Dialect) (o : Op) (ho : o = .and ∨ o = .or) (x : Expr) :
    ∀ y, render d (joinL o x y) = wrap (parens o x) (render d x) ++
      .op ((opToSql d o).getD "") :: wrap (parens o y) (render d y)
  | .bin o' y z => by
    unfold joinL
    split
    · rename_i h
      subst h
      obtain ⟨u, v, huv⟩ := joinL_shape o' x y
      have hp : parens o' (joinL o' x y) = false := by rw [huv]; exact parens_self o' ho u v
      simp only [render, hp, wrap, Bool.false_eq_true, if_false, parens_self o' ho y z]
      rw [joinL_render d o' ho x y]
      simp [wrap]
    · simp [render]
  | .atom _ => by simp [joinL, render]
  | .not _ => by simp [joinL, render]
  | .neg _ => by simp [joinL, render]
  | .is _ _ => by simp [joinL, render]
  | .inList _ _ _ => by simp [joinL, render]
  | .unsupported _ => by simp [joinL, render]

mutual
theorem norm_render (d : Dialect) : ∀ e, render d (norm e) = render d e
  | .bin o a b => by
    unfold norm
    split
    · rename_i ho
      rw [joinL_render d o ho, norm_render d a, norm_render d b, parens_norm, parens_norm]
      simp [render]
    · simp [render, norm_render d a, norm_render d b, parens_norm]
  | .not a => by simp [norm, render, norm_render d a]
  | .neg a => by simp [norm, render, norm_render d a]
  | .is k a => by simp [norm, render, norm_render d a]
  | .inList a xs n => by simp [norm, render, norm_render d a, normAll_render d xs]
  | .atom _ => by simp [norm]
  | .unsupported _ => by simp [norm]

theorem normAll_render (d : Dialect) : ∀ xs, renderAll d (normAll xs) = renderAll d xs
  | .nil => by simp [normAll]
  | .cons x xs => by simp [normAll, renderAll, norm_render d x, normAll_render d xs]
end

/-- **C48 (faithful filters).** If, in the left-nested form of a filter, no operand that stands
without parentheses binds weaker than its context (`Safe`), then the remote database reads the text
as an expression with the same value, for any meaning of the operators in which AND and OR are
associative.  Partial: the visitor only parenthesises binary operands of lower precedence, so other
filters change their meaning (the `C48_violated_…` theorems); `C48_simple_partial` gives a class of
filters for which the hypothesis holds. -/
theorem C48_partial (d : Dialect) (e : Expr) (s : Sql) (h : filterToSql d e = some s)
    (hs : Safe d (norm e)) :
    ∃ e', Reads d s e' ∧ ∀ (V : Type) (A : Alg V), A.Assoc → A.eval e' = A.eval e := by
  rw [C48_visitor] at h
  split at h
  · injection h with h
    subst h
    refine ⟨norm e, ?_, fun V A hA => norm_eval A hA e⟩
    have := reads_safe d (norm e) hs
    rwa [norm_render] at this
  · simp at h

/-! ### Ordinary filters -/

/-- Arithmetic and comparison operators. -/
def isArith (o : Op) : Bool := o == .plus || o == .minus || o == .mul || o == .div || o == .mod
def isCmp (o : Op) : Bool :=
  o == .eq || o == .neq || o == .lt || o == .le || o == .gt || o == .ge

/-- Columns, literals, their negation, and arithmetic without a right operand of the same
precedence. -/
def isTerm : Expr → Bool
  | .atom _ => true
  | .neg (.atom _) => true
  | .bin o a b => isArith o && isTerm a && isTerm b &&
      (top b).elim true (fun ob => ob.prec != o.prec)
  | _ => false

def allTerms : Exprs → Bool
  | .nil => true
  | .cons x xs => isTerm x && allTerms xs

/-- Comparisons of terms, `IS …` and `IN` on terms, Boolean columns. -/
def isPred : Expr → Bool
  | .atom _ => true
  | .bin o a b => isCmp o && isTerm a && isTerm b
  | .is _ a => isTerm a
  | .inList a (.cons x xs) _ => isTerm a && isTerm x && allTerms xs
  | _ => false

/-- Boolean combinations of predicates and negated predicates, nested in any way. -/
def isFilter : Expr → Bool
  | .not a => isPred a
  | .bin o a b =>
    if o == .and || o == .or then isFilter a && isFilter b else isPred (.bin o a b)
  | e => isPred e

/-- Facts about the three dialects. -/
theorem dialect_facts (d : Dialect) :
    (∀ o, isArith o = true → readOp d ((opToSql d o).getD "") = some o ∧
      (prec d).inBp < (prec d).bp o ∧ (prec d).isBp < (prec d).bp o ∧
      (prec d).notBp < (prec d).bp o ∧ ∀ p, isCmp p = true → (prec d).bp p < (prec d).bp o) ∧
    (∀ o, isCmp o = true → readOp d ((opToSql d o).getD "") = some o ∧
      (prec d).notBp < (prec d).bp o ∧ (prec d).bp .and < (prec d).bp o ∧
      (prec d).bp .or < (prec d).bp o) ∧
    (readOp d ((opToSql d .and).getD "") = some .and ∧
     readOp d ((opToSql d .or).getD "") = some .or) ∧
    (prec d).bp .or < (prec d).bp .and ∧ (prec d).bp .and < (prec d).notBp ∧
    (prec d).notBp < (prec d).isBp ∧ (prec d).notBp < (prec d).inBp ∧
    (∀ o p, isArith o = true → isArith p = true → (o.prec < p.prec ↔ (prec d).bp o < (prec d).bp p)) ∧
    (∀ o p, isArith o = true → isArith p = true → (o.prec = p.prec ↔ (prec d).bp o = (prec d).bp p)) ∧
    (∀ o, (prec d).bp o < 100) ∧ (prec d).notBp < 100 ∧ (prec d).isBp < 100 ∧ (prec d).inBp < 100 := by
  refine ⟨?_, ?_, ?_, ?_, ?_, ?_, ?_, ?_, ?_, ?_, ?_, ?_, ?_⟩
  · intro o ho
    cases o <;> simp [isArith] at ho <;> cases d <;>
      refine ⟨by decide, by decide, by decide, by decide, fun p hp => ?_⟩ <;>
      cases p <;> simp [isCmp] at hp <;> decide
  · intro o ho
    cases o <;> simp [isCmp] at ho <;> cases d <;> decide
  · cases d <;> decide
  · cases d <;> decide
  · cases d <;> decide
  · cases d <;> decide
  · cases d <;> decide
  · intro o p ho hp
    cases o <;> simp [isArith] at ho <;> cases p <;> simp [isArith] at hp <;> cases d <;> decide
  · intro o p ho hp
    cases o <;> simp [isArith] at ho <;> cases p <;> simp [isArith] at hp <;> cases d <;> decide
  · intro o; cases d <;> cases o <;> decide
  · cases d <;> decide
  · cases d <;> decide
  · cases d <;> decide

theorem arith_prec (o : Op) (h : isArith o = true) : o.prec ≠ 0 ∧ 20 < o.prec := by
  cases o <;> simp [isArith] at h <;> decide

theorem term_top (e : Expr) (h : isTerm e = true) : ∀ o, top e = some o → isArith o = true := by
  intro o ho
  cases e with
  | bin o' a b =>
    simp only [top, Option.some.injEq] at ho
    subst ho
    simp only [isTerm, Bool.and_eq_true] at h
    exact h.1.1.1
  | _ => simp [top] at ho

/-- The level of a term: an arithmetic operator or no open operator. -/
theorem term_lvl (d : Dialect) (e : Expr) (h : isTerm e = true) :
    (∃ o, top e = some o ∧ lvl d e = (prec d).bp o ∧ isArith o = true) ∨
    (top e = none ∧ lvl d e = 100) := by
  cases e with
  | bin o a b => exact Or.inl ⟨o, rfl, rfl, term_top _ h o rfl⟩
  | atom a => exact Or.inr ⟨rfl, rfl⟩
  | neg a => exact Or.inr ⟨rfl, rfl⟩
  | _ => simp [isTerm] at h

theorem term_safe (d : Dialect) : ∀ e, isTerm e = true → Safe d e ∧ norm e = e
  | .atom a, _ => by simp [Safe, norm]
  | .neg (.atom a), _ => by
    refine ⟨?_, by simp [norm]⟩
    simp only [Safe, and_true, lvl]
    decide
  | .bin o a b, h => by
    simp only [isTerm, Bool.and_eq_true] at h
    obtain ⟨⟨⟨ho, ha⟩, hb⟩, hne⟩ := h
    obtain ⟨sa, na⟩ := term_safe d a ha
    obtain ⟨sb, nb⟩ := term_safe d b hb
    obtain ⟨F1, F2, F3, F4, F5, F6, F7, F8, F9, F10, F11, F12, F13⟩ := dialect_facts d
    constructor
    · simp only [Safe]
      refine ⟨(F1 o ho).1, ?_, ?_, sa, sb⟩
      · intro hp
        rcases term_lvl d a ha with ⟨oa, h1, h2, h3⟩ | ⟨h1, h2⟩
        · rw [parens_top, h1] at hp
          simp only [Option.elim_some, Bool.or_eq_false_iff, decide_eq_false_iff_not, Nat.not_lt] at hp
          rw [h2]
          have hnl : leftBp d o = (prec d).bp o := by
            cases o <;> simp [isArith] at ho <;> cases d <;> rfl
          rw [hnl]
          refine Nat.le_of_not_lt fun hc => ?_
          have := (F8 oa o h3 ho).2 hc
          omega
        · rw [h2]; have := F10 o; unfold leftBp; split <;> omega
      · intro hp
        rcases term_lvl d b hb with ⟨ob, h1, h2, h3⟩ | ⟨h1, h2⟩
        · rw [parens_top, h1] at hp
          rw [h1] at hne
          simp only [Option.elim_some, Bool.or_eq_false_iff, decide_eq_false_iff_not, Nat.not_lt] at hp
          simp only [Option.elim_some, bne_iff_ne, ne_eq] at hne
          rw [h2]
          exact (F8 o ob ho h3).1 (by omega)
        · rw [h2]; exact F10 o
    · unfold norm
      have : ¬ (o = .and ∨ o = .or) := by
        rintro (rfl | rfl) <;> simp [isArith] at ho
      rw [if_neg this, na, nb]

theorem allTerms_safe (d : Dialect) : ∀ (x : Expr) (xs : Exprs), isTerm x = true →
    allTerms xs = true → SafeAll d (.cons x xs) ∧ normAll (.cons x xs) = .cons x xs
  | x, .nil, hx, _ => by
    obtain ⟨h1, h2⟩ := term_safe d x hx
    exact ⟨by simpa only [SafeAll] using h1, by simp [normAll, h2]⟩
  | x, .cons y ys, hx, hxs => by
    simp only [allTerms, Bool.and_eq_true] at hxs
    obtain ⟨h1, h2⟩ := term_safe d x hx
    obtain ⟨h3, h4⟩ := allTerms_safe d y ys hxs.1 hxs.2
    refine ⟨by simp only [SafeAll]; exact ⟨h1, h3⟩, ?_⟩
    unfold normAll
    rw [h2, h4]

theorem term_ge (d : Dialect) (e : Expr) (h : isTerm e = true) :
    (prec d).inBp < lvl d e ∧ (prec d).isBp < lvl d e ∧ (prec d).notBp < lvl d e ∧
    ∀ p, isCmp p = true → (prec d).bp p < lvl d e := by
  obtain ⟨F1, F2, F3, F4, F5, F6, F7, F8, F9, F10, F11, F12, F13⟩ := dialect_facts d
  rcases term_lvl d e h with ⟨o, h1, h2, h3⟩ | ⟨h1, h2⟩
  · rw [h2]
    obtain ⟨-, a, b, c, f⟩ := F1 o h3
    exact ⟨a, b, c, f⟩
  · rw [h2]
    exact ⟨F13, F12, F11, fun p _ => F10 p⟩

/-- Predicates are safe, bind tighter than NOT, and are not split up. -/
theorem pred_safe (d : Dialect) (e : Expr) (h : isPred e = true) :
    Safe d e ∧ norm e = e ∧ (prec d).notBp < lvl d e := by
  obtain ⟨F1, F2, F3, F4, F5, F6, F7, F8, F9, F10, F11, F12, F13⟩ := dialect_facts d
  cases e with
  | atom a => exact ⟨by simp [Safe], by simp [norm], F11⟩
  | bin o a b =>
    simp only [isPred, Bool.and_eq_true] at h
    obtain ⟨⟨ho, ha⟩, hb⟩ := h
    obtain ⟨sa, na⟩ := term_safe d a ha
    obtain ⟨sb, nb⟩ := term_safe d b hb
    refine ⟨?_, ?_, (F2 o ho).2.1⟩
    · simp only [Safe]
      refine ⟨(F2 o ho).1, fun _ => ?_, fun _ => ?_, sa, sb⟩
      · have := (term_ge d a ha).2.2.2 o ho
        unfold leftBp; split <;> omega
      · exact (term_ge d b hb).2.2.2 o ho
    · unfold norm
      have : ¬ (o = .and ∨ o = .or) := by
        rintro (rfl | rfl) <;> simp [isCmp] at ho
      rw [if_neg this, na, nb]
  | is k a =>
    simp only [isPred] at h
    obtain ⟨sa, na⟩ := term_safe d a h
    refine ⟨?_, by simp [norm, na], F6⟩
    simp only [Safe]
    exact ⟨Nat.le_of_lt (term_ge d a h).2.1, sa⟩
  | inList a xs n =>
    cases xs with
    | nil => simp [isPred] at h
    | cons x xs =>
      simp only [isPred, Bool.and_eq_true] at h
      obtain ⟨⟨ha, hx⟩, hxs⟩ := h
      obtain ⟨sa, na⟩ := term_safe d a ha
      obtain ⟨s1, n1⟩ := allTerms_safe d x xs hx hxs
      refine ⟨?_, ?_, F7⟩
      · simp only [Safe]
        exact ⟨Nat.le_of_lt (term_ge d a ha).1, sa, s1⟩
      · unfold norm
        rw [na, n1]
  | _ => simp [isPred] at h

/-- What joining needs to know of an operand. -/
def Operand (d : Dialect) (o : Op) (e : Expr) : Prop :=
  Safe d e ∧ (parens o e = false → (prec d).bp o ≤ lvl d e) ∧
  (parens o e = false → top e ≠ some o → (prec d).bp o < lvl d e)

theorem leftBp_junct (d : Dialect) (o : Op) (ho : o = .and ∨ o = .or) :
    leftBp d o = (prec d).bp o := by
  rcases ho with rfl | rfl <;> cases d <;> rfl

theorem joinL_safe (d : Dialect) (o : Op) (ho : o = .and ∨ o = .or) (x : Expr)
    (hx : Operand d o x) : ∀ y, Operand d o y → Safe d (joinL o x y)
  | .bin o' y z, hy => by
    have hread : readOp d ((opToSql d o).getD "") = some o := by
      rcases ho with rfl | rfl
      · exact (dialect_facts d).2.2.1.1
      · exact (dialect_facts d).2.2.1.2
    unfold joinL
    split
    · rename_i h
      subst h
      obtain ⟨hsafe, -, -⟩ := hy
      simp only [Safe] at hsafe
      obtain ⟨_, h2, h3, h4, h5⟩ := hsafe
      have hy' : Safe d (joinL o' x y) := by
        rw [leftBp_junct d o' ho] at h2
        refine joinL_safe d o' ho x hx y ⟨h4, h2, ?_⟩
        intro hp htop
        have := h2 hp
        -- not an operator of the same level, since distinct operators here have distinct levels
        refine Nat.lt_of_le_of_ne this fun heq => ?_
        cases y with
        | bin oy u v =>
          simp only [lvl] at heq
          have : oy = o' := by
            rcases ho with rfl | rfl <;> cases d <;> cases oy <;> simp [prec] at heq ⊢
          exact htop (by rw [this]; rfl)
        | not u =>
          simp only [lvl] at heq
          exact absurd heq ((notBp_ne d).1 o')
        | is k u =>
          simp only [lvl] at heq
          rcases ho with rfl | rfl <;> cases d <;> simp [prec] at heq
        | inList u xs n =>
          simp only [lvl] at heq
          rcases ho with rfl | rfl <;> cases d <;> simp [prec] at heq
        | _ =>
          simp only [lvl] at heq
          have := (dialect_facts d).2.2.2.2.2.2.2.2.2.1 o'
          omega
      obtain ⟨u, v, huv⟩ := joinL_shape o' x y
      simp only [Safe]
      refine ⟨hread, ?_, h3, hy', h5⟩
      intro _
      rw [huv, leftBp_junct d o' ho]
      exact Nat.le_refl _
    · rename_i hne
      simp only [Safe]
      rw [leftBp_junct d o ho]
      refine ⟨hread, hx.2.1, ?_, hx.1, ?_⟩
      · intro hp
        exact hy.2.2 hp (by simp only [top, ne_eq, Option.some.injEq]; exact hne)
      · simpa only [Safe] using hy.1
  | .atom a, hy => joinL_safe_leaf d o ho x hx _ (by simp [joinL]) hy (by simp [top])
  | .not a, hy => joinL_safe_leaf d o ho x hx _ (by simp [joinL]) hy (by simp [top])
  | .neg a, hy => joinL_safe_leaf d o ho x hx _ (by simp [joinL]) hy (by simp [top])
  | .is k a, hy => joinL_safe_leaf d o ho x hx _ (by simp [joinL]) hy (by simp [top])
  | .inList a xs n, hy => joinL_safe_leaf d o ho x hx _ (by simp [joinL]) hy (by simp [top])
  | .unsupported n, hy => joinL_safe_leaf d o ho x hx _ (by simp [joinL]) hy (by simp [top])
where
  joinL_safe_leaf (d : Dialect) (o : Op) (ho : o = .and ∨ o = .or) (x : Expr)
      (hx : Operand d o x) (y : Expr) (hj : joinL o x y = .bin o x y) (hy : Operand d o y)
      (ht : top y ≠ some o) : Safe d (joinL o x y) := by
    rw [hj]
    simp only [Safe]
    rw [leftBp_junct d o ho]
    refine ⟨?_, hx.2.1, fun hp => hy.2.2 hp ht, hx.1, hy.1⟩
    rcases ho with rfl | rfl
    · exact (dialect_facts d).2.2.1.1
    · exact (dialect_facts d).2.2.1.2

theorem filter_operand (d : Dialect) (o : Op) (ho : o = .and ∨ o = .or) (e : Expr)
    (hs : Safe d e) (hl : (prec d).bp .or ≤ lvl d e)
    (hcase : (prec d).bp .and < lvl d e ∨ top e = some .and ∨ top e = some .or) :
    Operand d o e := by
  obtain ⟨F1, F2, F3, F4, F5, F6, F7, F8, F9, F10, F11, F12, F13⟩ := dialect_facts d
  refine ⟨hs, ?_, ?_⟩
  · intro hp
    rcases hcase with h | h | h
    · rcases ho with rfl | rfl <;> omega
    · cases e with
      | bin oe a b =>
        simp only [top, Option.some.injEq] at h
        subst h
        rcases ho with rfl | rfl
        · exact Nat.le_refl _
        · exact hl
      | _ => simp [top] at h
    · cases e with
      | bin oe a b =>
        simp only [top, Option.some.injEq] at h
        subst h
        rcases ho with rfl | rfl
        · simp [parens, Op.prec] at hp
        · exact Nat.le_refl _
      | _ => simp [top] at h
  · intro hp ht
    rcases hcase with h | h | h
    · rcases ho with rfl | rfl <;> omega
    · rcases ho with rfl | rfl
      · exact absurd h ht
      · cases e with
        | bin oe a b =>
          simp only [top, Option.some.injEq] at h
          subst h
          exact F4
        | _ => simp [top] at h
    · rcases ho with rfl | rfl
      · cases e with
        | bin oe a b =>
          simp only [top, Option.some.injEq] at h
          subst h
          simp [parens, Op.prec] at hp
        | _ => simp [top] at h
      · exact absurd h ht

theorem filter_safe (d : Dialect) : ∀ e, isFilter e = true →
    Safe d (norm e) ∧ (prec d).bp .or ≤ lvl d (norm e) ∧
    ((prec d).bp .and < lvl d (norm e) ∨ top (norm e) = some .and ∨ top (norm e) = some .or)
  | .bin o a b, h => by
    obtain ⟨F1, F2, F3, F4, F5, F6, F7, F8, F9, F10, F11, F12, F13⟩ := dialect_facts d
    unfold isFilter at h
    split at h
    · rename_i ho
      have ho' : o = .and ∨ o = .or := by simpa using ho
      simp only [Bool.and_eq_true] at h
      obtain ⟨sa, la, ca⟩ := filter_safe d a h.1
      obtain ⟨sb, lb, cb⟩ := filter_safe d b h.2
      have hn : norm (.bin o a b) = joinL o (norm a) (norm b) := by
        rw [norm, if_pos ho']
      rw [hn]
      obtain ⟨u, v, huv⟩ := joinL_shape o (norm a) (norm b)
      refine ⟨joinL_safe d o ho' _ (filter_operand d o ho' _ sa la ca) _
        (filter_operand d o ho' _ sb lb cb), ?_, ?_⟩
      · rw [huv]
        rcases ho' with rfl | rfl
        · exact Nat.le_of_lt F4
        · exact Nat.le_refl _
      · rw [huv]
        rcases ho' with rfl | rfl
        · exact Or.inr (Or.inl rfl)
        · exact Or.inr (Or.inr rfl)
    · obtain ⟨s, n, l⟩ := pred_safe d _ h
      rw [n]
      exact ⟨s, by omega, Or.inl (by omega)⟩
  | .not a, h => by
    obtain ⟨F1, F2, F3, F4, F5, F6, F7, F8, F9, F10, F11, F12, F13⟩ := dialect_facts d
    simp only [isFilter] at h
    obtain ⟨s, n, l⟩ := pred_safe d a h
    have hn : norm (.not a) = .not a := by simp [norm, n]
    rw [hn]
    refine ⟨?_, ?_, Or.inl ?_⟩
    · simp only [Safe]; exact ⟨Nat.le_of_lt l, s⟩
    · simp only [lvl]; omega
    · simp only [lvl]; omega
  | .atom a, h => filter_leaf d _ (by simpa [isFilter] using h)
  | .neg a, h => filter_leaf d _ (by simpa [isFilter] using h)
  | .is k a, h => filter_leaf d _ (by simpa [isFilter] using h)
  | .inList a xs n, h => filter_leaf d _ (by simpa [isFilter] using h)
  | .unsupported n, h => filter_leaf d _ (by simpa [isFilter] using h)
where
  filter_leaf (d : Dialect) (e : Expr) (h : isPred e = true) :
      Safe d (norm e) ∧ (prec d).bp .or ≤ lvl d (norm e) ∧
      ((prec d).bp .and < lvl d (norm e) ∨ top (norm e) = some .and ∨ top (norm e) = some .or) := by
    obtain ⟨F1, F2, F3, F4, F5, F6, F7, F8, F9, F10, F11, F12, F13⟩ := dialect_facts d
    obtain ⟨s, n, l⟩ := pred_safe d _ h
    rw [n]
    exact ⟨s, by omega, Or.inl (by omega)⟩

/-- **C48 (ordinary filters).** For every Boolean combination — nested in any way — of comparisons,
`IS …`, `IN` and Boolean columns, possibly negated, over arithmetic without a right operand of the
same precedence, and for each of the three kinds of remote database, the text that is sent means the
filter. -/
theorem C48_simple_partial (d : Dialect) (e : Expr) (s : Sql) (h : filterToSql d e = some s)
    (hf : isFilter e = true) :
    ∃ e', Reads d s e' ∧ ∀ (V : Type) (A : Alg V), A.Assoc → A.eval e' = A.eval e :=
  C48_partial d e s h (filter_safe d e hf).1

/-- A Boolean combination by AND or OR, as `isFilter` allows it. -/
def isJunction (e : Expr) : Bool := isFilter e && (top e == some .and || top e == some .or)

/-- **C48 (comparing conditions).** A comparison with a combination of conditions by AND and OR on either side and
a term on the other is also read as it was meant: there the visitor puts the parentheses, whatever the kind of remote database. -/
theorem C48_compared_partial (d : Dialect) (o : Op) (ho : isCmp o = true) (e t : Expr) (s : Sql)
    (he : isJunction e = true) (ht : isTerm t = true) :
    (filterToSql d (.bin o t e) = some s →
      ∃ e', Reads d s e' ∧ ∀ (V : Type) (A : Alg V), A.Assoc → A.eval e' = A.eval (.bin o t e)) ∧
    (filterToSql d (.bin o e t) = some s →
      ∃ e', Reads d s e' ∧ ∀ (V : Type) (A : Alg V), A.Assoc → A.eval e' = A.eval (.bin o e t)) := by
  obtain ⟨F1, F2, F3, F4, F5, F6, F7, F8, F9, F10, F11, F12, F13⟩ := dialect_facts d
  simp only [isJunction, Bool.and_eq_true, Bool.or_eq_true, beq_iff_eq] at he
  obtain ⟨hf, htop⟩ := he
  have hs := (filter_safe d e hf).1
  obtain ⟨st, nt⟩ := term_safe d t ht
  have hr : readOp d ((opToSql d o).getD "") = some o := (F2 o ho).1
  have hn : ¬ (o = .and ∨ o = .or) := by
    rintro (rfl | rfl) <;> simp [isCmp] at ho
  have hl := (term_ge d t ht).2.2.2 o ho
  have hp : parens o (norm e) = true := by
    rw [parens_norm, parens_top]
    rcases htop with h | h <;> rw [h] <;> cases o <;> simp [isCmp] at ho <;> decide
  refine ⟨fun h => C48_partial d _ s h ?_, fun h => C48_partial d _ s h ?_⟩
  · unfold norm
    rw [if_neg hn, nt]
    simp only [Safe]
    exact ⟨hr, fun _ => by unfold leftBp; split <;> omega, fun h => by rw [hp] at h; exact absurd h (by decide), st, hs⟩
  · unfold norm
    rw [if_neg hn, nt]
    simp only [Safe]
    exact ⟨hr, fun h => by rw [hp] at h; exact absurd h (by decide), fun _ => hl, hs, st⟩

/-- `(a AND b) = c` is sent with its parentheses. -/
example : isJunction (.bin .and (.atom (.col "a")) (.atom (.col "b"))) = true ∧
    filterToSql .postgres (.bin .eq (.bin .and (.atom (.col "a")) (.atom (.col "b"))) (.atom (.col "c"))) =
      some [.lp, .atom (.col "a"), .op "AND", .atom (.col "b"), .rp, .op "=", .atom (.col "c")] := by decide +kernel

/-- The operators DataFusion gives no precedence. -/
def isLoose (o : Op) : Bool :=
  match o with
  | .bitAnd | .bitOr | .bitXor | .concat | .regexMatch | .regexIMatch | .regexNotMatch | .regexNotIMatch
  | .distinct | .notDistinct => true
  | _ => false

/-- **C48 (bitwise operators, concatenation and patterns as operands).** As an operand of whatever operator a
combination of columns and constants by one of these operators is read as it was meant: the visitor always puts
parentheses around it.  Both operators are ones that the remote database has. -/
theorem C48_loose_operand_partial (d : Dialect) (o p : Op) (hp : isLoose p = true) (x y z : Atom) (s : Sql)
    (ho : readOp d ((opToSql d o).getD "") = some o) (hr : readOp d ((opToSql d p).getD "") = some p) :
    (filterToSql d (.bin o (.bin p (.atom x) (.atom y)) (.atom z)) = some s →
      ∃ e', Reads d s e' ∧ ∀ (V : Type) (A : Alg V), A.Assoc →
        A.eval e' = A.eval (.bin o (.bin p (.atom x) (.atom y)) (.atom z))) ∧
    (filterToSql d (.bin o (.atom z) (.bin p (.atom x) (.atom y))) = some s →
      ∃ e', Reads d s e' ∧ ∀ (V : Type) (A : Alg V), A.Assoc →
        A.eval e' = A.eval (.bin o (.atom z) (.bin p (.atom x) (.atom y)))) := by
  have hpn : ¬ (p = .and ∨ p = .or) := by rintro (rfl | rfl) <;> simp [isLoose] at hp
  have hpar : parens o (.bin p (.atom x) (.atom y)) = true := by
    cases p <;> simp [isLoose] at hp <;> simp [parens, Op.prec]
  have hl : leftBp d o < 100 ∧ (prec d).bp o < 100 := by
    unfold leftBp; cases d <;> cases o <;> decide
  have hl' : leftBp d p < 100 ∧ (prec d).bp p < 100 := by
    unfold leftBp; cases d <;> cases p <;> decide
  have hsafe : Safe d (.bin p (.atom x) (.atom y)) := by
    simp only [Safe]
    exact ⟨hr, fun _ => Nat.le_of_lt hl'.1, fun _ => hl'.2, trivial, trivial⟩
  have e1 : norm (.bin o (.bin p (.atom x) (.atom y)) (.atom z)) = .bin o (.bin p (.atom x) (.atom y)) (.atom z) := by
    simp only [norm, if_neg hpn, joinL]; split <;> rfl
  have e2 : norm (.bin o (.atom z) (.bin p (.atom x) (.atom y))) = .bin o (.atom z) (.bin p (.atom x) (.atom y)) := by
    simp only [norm, if_neg hpn, joinL]
    by_cases h : o = .and ∨ o = .or
    · have : p ≠ o := fun e => hpn (e ▸ h)
      rw [if_pos h, if_neg this]
    · rw [if_neg h]
  refine ⟨fun h => C48_partial d _ s h ?_, fun h => C48_partial d _ s h ?_⟩
  · rw [e1]; unfold Safe
    exact ⟨ho, fun h => by rw [hpar] at h; exact absurd h (by decide), fun _ => hl.2, hsafe, by simp only [Safe]⟩
  · rw [e2]; unfold Safe
    exact ⟨ho, fun _ => Nat.le_of_lt hl.1, fun h => by rw [hpar] at h; exact absurd h (by decide), by simp only [Safe], hsafe⟩

/-- `a & (b | c)` keeps its parentheses. -/
example : filterToSql .mysql (.bin .bitAnd (.atom (.col "a")) (.bin .bitOr (.atom (.col "b")) (.atom (.col "c")))) =
    some [.atom (.col "a"), .op "&", .lp, .atom (.col "b"), .op "|", .atom (.col "c"), .rp] := by decide +kernel

/-- **C48 (operators).** An operator is sent only in a spelling the database reads as that operator,
except for XOR in PostgreSQL and for concatenation and the two comparisons of NULLs in MySQL. -/
theorem C48_operators_partial (d : Dialect) (o : Op) (t : String) (h : opToSql d o = some t)
    (hx : ¬ (d = .postgres ∧ o = .bitXor))
    (hy : ¬ (d = .mysql ∧ (o = .concat ∨ o = .distinct ∨ o = .notDistinct))) :
    readOp d t = some o := by
  cases d <;> cases o <;>
    first
      | exact absurd ⟨rfl, rfl⟩ hx
      | exact absurd ⟨rfl, .inl rfl⟩ hy
      | exact absurd ⟨rfl, .inr (.inl rfl)⟩ hy
      | exact absurd ⟨rfl, .inr (.inr rfl)⟩ hy
      | (simp only [opToSql, Op.text, reduceCtorEq] at h; done)
      | (simp only [opToSql, Op.text, Option.some.injEq] at h; subst h; decide)

example : opToSql .mysql .regexMatch = some "RLIKE" ∧ readOp .mysql "RLIKE" = some .regexMatch := by
  decide

/-- **C48 (several filters).** The same for the WHERE clause of a scan with several filters: it is
read as an expression with the value of their conjunction. -/
theorem C48_where_partial (d : Dialect) (fs : List Expr) (s : Sql)
    (h : whereClause d fs = some (some s)) (hf : ∀ e ∈ fs, isFilter e = true) :
    ∃ e', Reads d s e' ∧ ∀ (V : Type) (A : Alg V), A.Assoc →
      ∀ e rest, fs = e :: rest →
        A.eval e' = rest.foldl (fun v x => A.bin .and v (A.eval x)) (A.eval e) := by
  unfold whereClause at h
  cases fs with
  | nil => simp at h
  | cons e rest =>
    simp only [List.isEmpty_cons, Bool.false_eq_true, if_false, conjunction,
      Option.map_eq_some_iff, Option.some.injEq, exists_eq_right] at h
    have hfil : ∀ (rest : List Expr) (e : Expr), isFilter e = true →
        (∀ x ∈ rest, isFilter x = true) →
        isFilter (rest.foldl (fun acc x => .bin .and acc x) e) = true := by
      intro rest
      induction rest with
      | nil => intro e he _; exact he
      | cons x rest ih =>
        intro e he hr
        rw [List.foldl_cons]
        refine ih _ ?_ (fun y hy => hr y (by simp [hy]))
        simp [isFilter, he, hr x (by simp)]
    obtain ⟨e', h1, h2⟩ := C48_simple_partial d _ s h
      (hfil rest e (hf e (by simp)) (fun x hx => hf x (by simp [hx])))
    refine ⟨e', h1, ?_⟩
    intro V A hA e0 rest0 heq
    injection heq with heq1 heq2
    subst heq1; subst heq2
    rw [h2 V A hA]
    have heval : ∀ (rest : List Expr) (e : Expr),
        A.eval (rest.foldl (fun acc x => .bin .and acc x) e) =
        rest.foldl (fun v x => A.bin .and v (A.eval x)) (A.eval e) := by
      intro rest
      induction rest with
      | nil => intro e; rfl
      | cons x rest ih => intro e; rw [List.foldl_cons, List.foldl_cons, ih]; simp [Alg.eval]
    exact heval rest e

/-- **C48 (nothing is lost).** A filter is taken off DataFusion's hands exactly when it can be sent,
and then a scan with any such filters succeeds in building the WHERE clause. -/
theorem C48_exact (d : Dialect) (fs : List Expr) (h : ∀ e ∈ fs, exact d e = true) :
    ∃ w, whereClause d fs = some w ∧ (w = none ↔ fs = []) := by
  unfold whereClause
  cases fs with
  | nil => exact ⟨none, by simp, by simp⟩
  | cons e rest =>
    simp only [List.isEmpty_cons, Bool.false_eq_true, if_false, conjunction]
    have hsh : ∀ x ∈ e :: rest, ship d x = true := by
      intro x hx
      have := h x hx
      unfold exact at this
      rw [C48_visitor] at this
      split at this
      · assumption
      · simp at this
    have hop : (opToSql d .and).isSome = true := by cases d <;> decide
    have : ∀ (rest : List Expr) (e : Expr), ship d e = true → (∀ x ∈ rest, ship d x = true) →
        ship d (rest.foldl (fun acc x => .bin .and acc x) e) = true := by
      intro rest
      induction rest with
      | nil => intro e he _; exact he
      | cons x rest ih =>
        intro e he hr
        rw [List.foldl_cons]
        refine ih _ ?_ (fun y hy => hr y (by simp [hy]))
        simp [ship, he, hr x (by simp), hop]
    rw [C48_visitor, if_pos (this rest e (hsh e (by simp)) (fun x hx => hsh x (by simp [hx])))]
    exact ⟨_, rfl, by simp⟩

/-! ### A case, and the filters that change their meaning -/

def colA : Expr := .atom (.col "a")
def colB : Expr := .atom (.col "b")
def colC : Expr := .atom (.col "c")

/-- A filter of the ordinary kind: `((a = 1 OR b > 10) AND NOT c IN (2, 3)) AND a + b * c < 5`,
with the second AND nested to the right. -/
example : isFilter (.bin .and
    (.bin .or (.bin .eq colA (.atom (.lit 1))) (.bin .gt colB (.atom (.lit 10))))
    (.bin .and (.not (.inList colC (.cons (.atom (.lit 2)) (.cons (.atom (.lit 3)) .nil)) false))
      (.bin .lt (.bin .plus colA (.bin .mul colB colC)) (.atom (.lit 5))))) = true := by decide

/-- The text is read as something with the value of the filter. -/
def Denotes (d : Dialect) (s : Sql) (e : Expr) : Prop :=
  ∃ e', Reads d s e' ∧ ∀ (V : Type) (A : Alg V), A.Assoc → A.eval e' = A.eval e

/-- SQL over numbers, truth being 0 and 1; no NULLs. -/
def numAlg (env : String → Int) : Alg Int where
  atom := fun a => match a with
    | .col n => env n
    | .lit n => n
    | .tzTimestamp n => n
  bin := fun o x y =>
    let b (c : Bool) : Int := if c then 1 else 0
    match o with
    | .and => b (x != 0 && y != 0)
    | .or => b (x != 0 || y != 0)
    | .eq | .notDistinct => b (x == y)
    | .neq | .distinct => b (x != y)
    | .lt => b (x < y)
    | .le => b (x ≤ y)
    | .gt => b (y < x)
    | .ge => b (y ≤ x)
    | .plus => x + y
    | .minus => x - y
    | .mul => x * y
    | .div => x / y
    | .mod => x % y
    | .concat => 10 * x + y
    | _ => 0
  not := fun x => if x = 0 then 1 else 0
  neg := fun x => -x
  is := fun k x => match k with
    | .null => 0
    | .notNull => 1
    | .true | .notFalse => if x = 0 then 0 else 1
    | .false | .notTrue => if x = 0 then 1 else 0
  inList := fun x xs n => if xs.contains x then (if n then 0 else 1) else (if n then 1 else 0)
  unsupported := fun _ => 0

theorem numAlg_assoc (env : String → Int) : (numAlg env).Assoc := by
  intro o ho x y z
  rcases ho with rfl | rfl
  · by_cases hx : x = 0 <;> by_cases hy : y = 0 <;> by_cases hz : z = 0 <;>
      simp [numAlg, hx, hy, hz]
  · by_cases hx : x = 0 <;> by_cases hy : y = 0 <;> by_cases hz : z = 0 <;>
      simp [numAlg, hx, hy, hz]

def envOf (a b c : Int) (n : String) : Int :=
  if n = "a" then a else if n = "b" then b else c

theorem not_denotes {d : Dialect} {s : Sql} {e : Expr} (e' : Expr) (a b c : Int)
    (hr : Reads d s e')
    (hne : (numAlg (envOf a b c)).eval e' ≠ (numAlg (envOf a b c)).eval e) : ¬ Denotes d s e := by
  rintro ⟨e2, h1, h2⟩
  have := Reads.unique h1 hr
  subst this
  exact hne (h2 Int _ (numAlg_assoc _))

/-- `a - (b - c)` is sent as `a - b - c`. -/
theorem C48_violated_minus (d : Dialect) :
    ∃ e s, exact d e = true ∧ filterToSql d e = some s ∧ ¬ Denotes d s e := by
  refine ⟨.bin .minus colA (.bin .minus colB colC), _, by cases d <;> rfl, by cases d <;> rfl, ?_⟩
  refine not_denotes (.bin .minus (.bin .minus colA colB) colC) 0 0 1 ⟨10, by cases d <;> rfl⟩ ?_
  decide

/-- `NOT (a AND b)` is sent as `NOT a AND b`. -/
theorem C48_violated_not (d : Dialect) :
    ∃ e s, exact d e = true ∧ filterToSql d e = some s ∧ ¬ Denotes d s e := by
  refine ⟨.not (.bin .and colA colB), _, by cases d <;> rfl, by cases d <;> rfl, ?_⟩
  refine not_denotes (.bin .and (.not colA) colB) 0 0 0 ⟨10, by cases d <;> rfl⟩ ?_
  decide

/-- `(a OR b) IS NULL` is sent as `a OR b IS NULL`. -/
theorem C48_violated_isNull (d : Dialect) :
    ∃ e s, exact d e = true ∧ filterToSql d e = some s ∧ ¬ Denotes d s e := by
  refine ⟨.is .null (.bin .or colA colB), _, by cases d <;> rfl, by cases d <;> rfl, ?_⟩
  refine not_denotes (.bin .or colA (.is .null colB)) 1 0 0 ⟨10, by cases d <;> rfl⟩ ?_
  decide

/-- `b = (a IS NULL)` is sent as `b = a IS NULL`. -/
theorem C48_violated_isOperand (d : Dialect) :
    ∃ e s, exact d e = true ∧ filterToSql d e = some s ∧ ¬ Denotes d s e := by
  refine ⟨.bin .eq colB (.is .null colA), _, by cases d <;> rfl, by cases d <;> rfl, ?_⟩
  refine not_denotes (.is .null (.bin .eq colB colA)) 0 0 0 ⟨10, by cases d <;> rfl⟩ ?_
  decide

/-- `b = (a IN (c))` is sent as `b = a IN (c)`, which SQLite and MySQL read as `(b = a) IN (c)`. -/
theorem C48_violated_in (d : Dialect) (hd : d ≠ .postgres) :
    ∃ e s, exact d e = true ∧ filterToSql d e = some s ∧ ¬ Denotes d s e := by
  refine ⟨.bin .eq colB (.inList colA (.cons colC .nil) false), _, by cases d <;> rfl, by cases d <;> rfl, ?_⟩
  refine not_denotes (.inList (.bin .eq colB colA) (.cons colC .nil) false) 2 1 2 ⟨10, ?_⟩ ?_
  · cases d
    · exact absurd rfl hd
    · rfl
    · rfl
  · decide

/-- PostgreSQL reads the same text as it was meant. -/
example : ∃ s, filterToSql .postgres (.bin .eq colB (.inList colA (.cons colC .nil) false)) = some s ∧
    Reads .postgres s (.bin .eq colB (.inList colA (.cons colC .nil) false)) := ⟨_, rfl, 10, rfl⟩

/-- PostgreSQL reads arithmetic beside its other operators as it was meant. -/
example (o : Op) (h : o = .concat ∨ o = .bitOr ∨ o = .bitAnd ∨ o = .regexMatch) :
    ∃ s, filterToSql .postgres (.bin o colC (.bin .plus colA colB)) = some s ∧
      Reads .postgres s (.bin o colC (.bin .plus colA colB)) := by
  rcases h with rfl | rfl | rfl | rfl <;> exact ⟨_, rfl, 10, rfl⟩

/-- `-(a + b)` is sent as `(- a + b)`. -/
theorem C48_violated_negative (d : Dialect) :
    ∃ e s, exact d e = true ∧ filterToSql d e = some s ∧ ¬ Denotes d s e := by
  refine ⟨.neg (.bin .plus colA colB), _, by cases d <;> rfl, by cases d <;> rfl, ?_⟩
  refine not_denotes (.bin .plus (.neg colA) colB) 0 1 0 ⟨10, by cases d <;> rfl⟩ ?_
  decide

/-- An operator without a precedence in DataFusion does not get its operands wrapped:
`(a OR b) IS DISTINCT FROM c` is sent as `a OR b IS DISTINCT FROM c`. -/
theorem C48_violated_distinct (d : Dialect) (hd : d ≠ .mysql) :
    ∃ e s, exact d e = true ∧ filterToSql d e = some s ∧ ¬ Denotes d s e := by
  refine ⟨.bin .distinct (.bin .or colA colB) colC, _, by cases d <;> rfl, by cases d <;> rfl, ?_⟩
  refine not_denotes (.bin .or colA (.bin .distinct colB colC)) 1 0 1 ⟨10, ?_⟩ ?_
  · cases d
    · rfl
    · rfl
    · exact absurd rfl hd
  · decide

/-- So it is with the bitwise operators: `(a = b) | c` is sent as `a = b | c`, to every database. -/
theorem C48_violated_bits (d : Dialect) (o : Op) (ho : o = .bitOr ∨ o = .bitAnd) (p : Op)
    (hp : p = .eq ∨ p = .neq ∨ p = .lt ∨ p = .le ∨ p = .gt ∨ p = .ge) :
    ∃ s, exact d (.bin o (.bin p colA colB) colC) = true ∧ filterToSql d (.bin o (.bin p colA colB) colC) = some s ∧
      Reads d s (.bin p colA (.bin o colB colC)) := by
  rcases ho with rfl | rfl <;> rcases hp with rfl | rfl | rfl | rfl | rfl | rfl <;> cases d <;> exact ⟨_, rfl, rfl, 10, rfl⟩

/-- Concatenation is sent to MySQL as `||`, which is OR there. -/
theorem C48_violated_concat :
    ∃ e s, exact .mysql e = true ∧ filterToSql .mysql e = some s ∧ ¬ Denotes .mysql s e := by
  refine ⟨.bin .concat colA colB, _, rfl, rfl, ?_⟩
  exact not_denotes (.bin .or colA colB) 1 2 0 ⟨10, rfl⟩ (by decide)

/-- Some filters taken off DataFusion's hands are a syntax error for the remote database:
`a BIT_XOR b` in PostgreSQL. -/
theorem C48_violated_syntax :
    ∃ e s, exact .postgres e = true ∧ filterToSql .postgres e = some s ∧
      ¬ ∃ e', Reads .postgres s e' := by
  refine ⟨.bin .bitXor colA colB, _, rfl, rfl, ?_⟩
  rintro ⟨e', f, h⟩
  match f with
  | 0 => simp [parseE] at h
  | 1 => simp [parseE, parseRest, wrap, parens, colA] at h
  | f + 2 =>
    have hop : readOp .postgres "BIT_XOR" = none := by decide
    simp [parseE, parseRest, wrap, parens, colA, colB, Op.text, hop] at h

/-- … and `a IS DISTINCT FROM b` in MySQL. -/
theorem C48_violated_mysql_distinct :
    ∃ e s, exact .mysql e = true ∧ filterToSql .mysql e = some s ∧
      ¬ ∃ e', Reads .mysql s e' := by
  refine ⟨.bin .distinct colA colB, _, rfl, rfl, ?_⟩
  rintro ⟨e', f, h⟩
  match f with
  | 0 => simp [parseE] at h
  | 1 => simp [parseE, parseRest, wrap, parens, colA] at h
  | f + 2 =>
    have hop : readOp .mysql "IS DISTINCT FROM" = none := by decide
    simp [parseE, parseRest, wrap, parens, colA, colB, Op.text, hop] at h

end Seafowl.Remote
