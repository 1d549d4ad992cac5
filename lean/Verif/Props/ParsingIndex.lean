import Verif.Proofs.ParserIndex
import Verif.Props.Parsing
/-! # C07: the parser stays inside its token list -/
set_option linter.unusedSimpArgs false
set_option linter.unusedSectionVars false
namespace Am
open Spec
variable {F : Type} [Rt F]

/-- C07: the index parser and the list parser give the same result on every text, at every fuel. -/
theorem c07_same_result (n : Nat) (text : Str) : iparseFuel (F := F) n text = parseFuel n text := by
  obtain ⟨t, r, hs, _, _⟩ := segment_endsEof text
  unfold iparseFuel parseFuel
  rw [hs]
  exact sim_top n n _ _ _ rfl

theorem sim_not_panic {α : Type} {x : Res (α × IS)} {y : Res (α × PS)} (h : Sim x y) : x ≠ .panic := by
  intro hx; subst hx; cases h

theorem iparseTop_no_panic (n k : Nat) : ∀ (src : Source F) (i : IS), i.index < i.tokens.length → iparseTop n k src i ≠ .panic := by
  induction k with
  | zero => intro src i _ h; cases h
  | succ k ih =>
    intro src i hb
    obtain ⟨t, r, htr⟩ : ∃ t r, i.tokens.drop i.index = t :: r := by
      cases hd : i.tokens.drop i.index with
      | nil => have := congrArg List.length hd; simp at this; omega
      | cons t r => exact ⟨t, r, rfl⟩
    have ha : At i ⟨t, r⟩ := htr
    simp only [iparseTop, ha.cur, Res.ok_bind]
    split
    · intro h; cases h
    · have := sim_item n src ha
      revert this
      generalize iparseItem n src i = x
      generalize parseItem n src ⟨t, r⟩ = y
      intro hxy
      cases hxy with
      | ok e i s hs => exact ih e _ hs.skipSemi.next.bounds
      | err m => intro h; cases h
      | hang => intro h; cases h

/-- C07. On every source text, and however long it runs, the parser never indexes outside the token list (which would be a panic;
nothing else in the parser can panic). -/
theorem c07_no_panic (n : Nat) (text : Str) : iparseFuel (F := F) n text ≠ .panic := by
  obtain ⟨t, r, hs, _, _⟩ := segment_endsEof text
  exact iparseTop_no_panic n n _ _ (by rw [hs]; simp)

/-- C07, at every point of the run: started inside the token list, `parse_expr` (and with it every function it calls) leaves the
index inside the token list. -/
theorem c07_in_bounds (n prec : Nat) (i i' : IS) (e : Expr F) (h : i.index < i.tokens.length)
    (hr : iparseExpr n prec i = .ok (e, i')) : i'.index < i'.tokens.length := by
  obtain ⟨t, r, htr⟩ : ∃ t r, i.tokens.drop i.index = t :: r := by
    cases hd : i.tokens.drop i.index with
    | nil => have := congrArg List.length hd; simp at this; omega
    | cons t r => exact ⟨t, r, rfl⟩
  have := sim_expr (F := F) n prec i ⟨t, r⟩ htr
  rw [hr] at this
  revert this
  generalize parseExpr (F := F) n prec ⟨t, r⟩ = y
  intro this
  cases this with
  | ok _ _ s hs => exact hs.bounds

/-- C07, at every point: no function call of `parse_expr` panics when started inside the token list. -/
theorem c07_expr_no_panic (n prec : Nat) (i : IS) (h : i.index < i.tokens.length) : iparseExpr (F := F) n prec i ≠ .panic := by
  obtain ⟨t, r, htr⟩ : ∃ t r, i.tokens.drop i.index = t :: r := by
    cases hd : i.tokens.drop i.index with
    | nil => have := congrArg List.length hd; simp at this; omega
    | cons t r => exact ⟨t, r, rfl⟩
  exact sim_not_panic (sim_expr n prec i ⟨t, r⟩ htr)

/-- The index really can be out of bounds in an arbitrary state: the bound is not vacuous. -/
example : (IS.mk [Token.eof] 1).cur = .panic := rfl
example : ∃ src : Source F, iparseFuel (F := F) 9 c!"1 + (2" = .err c!"token expect Rp but found Eof" ∧ iparseFuel 9 c!"1 + 2" = .ok src := ⟨_, rfl, rfl⟩

end Am
