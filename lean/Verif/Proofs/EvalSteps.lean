import Verif.Model.EvalSteps
import Verif.Proofs.Eval
import Verif.Spec.Growth
/-! # The steps of the evaluator, bounded -/
set_option linter.unusedSimpArgs false
set_option linter.unusedSectionVars false
namespace Am
open Spec
variable {F : Type} [Rt F]

/-- From states with the requests `rq`, `x` has the results of `y`, takes at most `k` steps, and keeps the requests. -/
def Tally {α : Type} (rq : List (Str × (Str × List (Expr F)))) (k : Nat) (x : MC F α) (y : M F α) : Prop :=
  ∀ s, s.ctx.requests = rq → (x s).1 = y s ∧ (x s).2 ≤ k ∧ (y s).2.ctx.requests = rq

section
variable {rq : List (Str × (Str × List (Expr F)))}

theorem Tally.pure {α : Type} (a : α) : Tally rq 0 (Pure.pure a : MC F α) (Pure.pure a : M F α) := fun _ h => ⟨rfl, Nat.le_refl _, h⟩

theorem Tally.mono {α : Type} {k n : Nat} {x : MC F α} {y : M F α} (h : k ≤ n) (hx : Tally rq k x y) : Tally rq n x y :=
  fun s hs => ⟨(hx s hs).1, Nat.le_trans (hx s hs).2.1 h, (hx s hs).2.2⟩

theorem Tally.bind {α β : Type} {k n : Nat} {x : MC F α} {y : M F α} {f : α → MC F β} {g : α → M F β} (hx : Tally rq k x y) (hf : ∀ a, Tally rq n (f a) (g a)) :
    Tally rq (k + n) (x >>= f) (y >>= g) := by
  intro s hs
  obtain ⟨h1, h2, h3⟩ := hx s hs
  show (MC.bind x f s).1 = M.bind y g s ∧ (MC.bind x f s).2 ≤ k + n ∧ (M.bind y g s).2.ctx.requests = rq
  unfold MC.bind M.bind
  generalize hy : y s = r at *
  generalize hz : x s = z at *
  obtain ⟨z1, z2⟩ := z
  dsimp only at h1 h2
  subst h1
  obtain ⟨res, s'⟩ := z1
  cases res with
  | ok a =>
    obtain ⟨g1, g2, g3⟩ := hf a s' h3
    exact ⟨g1, Nat.add_le_add h2 g2, g3⟩
  | err e => exact ⟨rfl, Nat.le_trans h2 (Nat.le_add_right _ _), h3⟩
  | panic => exact ⟨rfl, Nat.le_trans h2 (Nat.le_add_right _ _), h3⟩
  | hang => exact ⟨rfl, Nat.le_trans h2 (Nat.le_add_right _ _), h3⟩

theorem Tally.tick {α : Type} {k : Nat} {x : MC F α} {y : M F α} (hx : Tally rq k x y) : Tally rq (1 + k) (do MC.tick; x) y := by
  intro s hs
  obtain ⟨h1, h2, h3⟩ := hx s hs
  exact ⟨h1, Nat.add_le_add_left h2 1, h3⟩

theorem Tally.lift {α : Type} (r : Res α) : Tally rq 0 (MC.free (M.lift r : M F α)) (M.lift r) := fun _ h => ⟨rfl, Nat.le_refl _, h⟩

theorem Tally.free {α : Type} {m : M F α} (h : ∀ s, (m s).2.ctx.requests = s.ctx.requests) : Tally rq 0 (MC.free m) m :=
  fun s hs => ⟨rfl, Nat.le_refl _, (h s).trans hs⟩

theorem Tally.orElse {α : Type} {k : Nat} {x : MC F α} {y : M F α} (d : α) (hx : Tally rq k x y) : Tally rq k (x.orElse d) (y.orElse d) := by
  intro s hs
  obtain ⟨h1, h2, h3⟩ := hx s hs
  unfold MC.orElse M.orElse
  generalize hy : y s = r at *
  generalize hz : x s = z at *
  obtain ⟨⟨res, s'⟩, n⟩ := z
  dsimp only at h1 h2
  subst h1
  cases res <;> exact ⟨rfl, h2, h3⟩

variable {a : Nat} {callC : CallC F} {call : Call F} (hc : ∀ name vs, Tally rq a (callC name vs) (call name vs))
include hc

mutual
theorem evalExpr_tally : ∀ e : Expr F, Tally rq (nodes a e) (tevalExpr callC e) (evalExpr call e)
  | .int _ => by simp only [nodes, tevalExpr, evalExpr]; exact Tally.mono (by omega) (.tick (.pure _))
  | .float _ => by simp only [nodes, tevalExpr, evalExpr]; exact Tally.mono (by omega) (.tick (.pure _))
  | .bool _ => by simp only [nodes, tevalExpr, evalExpr]; exact Tally.mono (by omega) (.tick (.pure _))
  | .str _ => by simp only [nodes, tevalExpr, evalExpr]; exact Tally.mono (by omega) (.tick (.pure _))
  | .ident n => by
    simp only [nodes, tevalExpr, evalExpr]
    refine Tally.mono (by omega) (.tick (.free ?_))
    intro s
    cases s.ctx.get n <;> rfl
  | .arr items => by
    have h1 := evalList_tally items
    simp only [nodes, tevalExpr, evalExpr]
    exact .tick (.bind h1 fun _ => .pure _)
  | .map pairs => by
    have h1 := evalPairs_tally pairs []
    simp only [nodes, tevalExpr, evalExpr]
    exact .tick (.bind h1 fun _ => .pure _)
  | .index l i => by
    have h1 := evalExpr_tally l
    have h2 := evalExpr_tally i
    simp only [nodes, tevalExpr, evalExpr]
    exact Tally.mono (by omega) (.tick (.bind h1 fun _ => .bind h2 fun _ => .lift _))
  | .field l _ => by
    have h1 := evalExpr_tally l
    simp only [nodes, tevalExpr, evalExpr]
    exact .tick (.bind h1 fun _ => .lift _)
  | .letE _ e => by
    have h1 := evalExpr_tally e
    simp only [nodes, tevalExpr, evalExpr]
    exact .tick (.bind h1 fun _ => .bind (.free fun _ => rfl) fun _ => .pure _)
  | .unary _ r => by
    have h1 := evalExpr_tally r
    simp only [nodes, tevalExpr, evalExpr]
    exact .tick (.bind h1 fun _ => .lift _)
  | .binary t l r => by
    have h1 := evalExpr_tally l
    have h2 := evalExpr_tally r
    simp only [nodes, tevalExpr, evalExpr]
    rw [Nat.add_assoc]
    refine .tick ?_
    cases binaryOp (F := F) t.kind with
    | some op => exact .bind h1 fun _ => .bind h2 fun _ => .lift _
    | none =>
      dsimp only
      by_cases e1 : t.kind = .Lo
      · rw [if_pos e1, if_pos e1]
        refine .bind h1 fun v => ?_
        cases v.falsy
        · exact .mono (Nat.zero_le _) (.pure _)
        · exact h2
      · rw [if_neg e1, if_neg e1]
        by_cases e2 : t.kind = .La
        · rw [if_pos e2, if_pos e2]
          refine .bind h1 fun v => ?_
          cases v.falsy
          · exact h2
          · exact .mono (Nat.zero_le _) (.pure _)
        · rw [if_neg e2, if_neg e2]
          exact .mono (Nat.zero_le _) (.lift _)
  | .paren e => by
    have h1 := evalExpr_tally e
    simp only [nodes, tevalExpr, evalExpr]
    exact .tick h1
  | .ifE c t e => by
    have h1 := evalExpr_tally c
    have h2 := evalBlock_tally t .null
    have h3 := evalBlock_tally e .null
    simp only [nodes, tevalExpr, evalExpr]
    rw [Nat.add_assoc, Nat.add_assoc]
    refine .tick (.bind h1 fun v => ?_)
    cases v.falsy
    · exact .mono (Nat.le_add_right _ _) h2
    · exact .mono (Nat.le_add_left _ _) h3
  | .call f args => by
    have h1 := evalList_tally args
    simp only [nodes, tevalExpr, evalExpr]
    exact Tally.mono (by omega) (.tick (.bind h1 fun vs => hc f vs))
theorem evalList_tally : ∀ l : List (Expr F), Tally rq (nodesAll a l) (tevalList callC l) (evalList call l)
  | [] => by simp only [nodesAll, tevalList, evalList]; exact .pure _
  | e :: l => by
    have h1 := evalExpr_tally e
    have h2 := evalList_tally l
    simp only [nodesAll, tevalList, evalList]
    rw [Nat.add_assoc]
    exact .tick (.bind h1 fun _ => .bind h2 fun _ => .pure _)
theorem evalPairs_tally : ∀ (l : List (Expr F × Expr F)) (acc : List (Str × Value F)), Tally rq (nodesPairs a l) (tevalPairs callC acc l) (evalPairs call acc l)
  | [], _ => by simp only [nodesPairs, tevalPairs, evalPairs]; exact .pure _
  | (k, v) :: l, acc => by
    have h1 := evalExpr_tally k
    have h2 := evalExpr_tally v
    have h3 := evalPairs_tally l
    simp only [nodesPairs, tevalPairs, evalPairs]
    rw [Nat.add_assoc, Nat.add_assoc]
    exact .tick (.bind h1 fun _ => .bind h2 fun _ => h3 _)
theorem evalBlock_tally : ∀ (l : List (Expr F)) (acc : Value F), Tally rq (nodesAll a l) (tevalBlock callC acc l) (evalBlock call acc l)
  | [], _ => by simp only [nodesAll, tevalBlock, evalBlock]; exact .pure _
  | e :: l, acc => by
    have h1 := evalExpr_tally e
    have h2 := evalBlock_tally l
    simp only [nodesAll, tevalBlock, evalBlock]
    rw [Nat.add_assoc]
    exact .tick (.bind h1 fun _ => h2 _)
end

theorem evalAsserts_tally : ∀ l : List (Expr F), Tally rq (nodesAll a l) (tevalAsserts callC l) (evalAsserts call l)
  | [] => by simp only [nodesAll, tevalAsserts, evalAsserts]; exact .pure _
  | .binary t l r :: rest => by
    have h1 := evalExpr_tally hc l
    have h2 := evalExpr_tally hc r
    have h3 := evalAsserts_tally rest
    simp only [nodesAll, nodes, tevalAsserts, evalAsserts]
    refine Tally.mono (k := 1 + (nodes a l + (nodes a r + nodesAll a rest))) (by omega) (.tick (.bind (.orElse _ h1) fun x => .bind (.orElse _ h2) fun y => ?_))
    refine Tally.mono (k := nodesAll a rest + 0) (by omega) (.bind h3 fun as => ?_)
    cases compareValues t.kind x y <;> exact .pure _
  | .int _ :: rest | .float _ :: rest | .bool _ :: rest | .str _ :: rest | .ident _ :: rest | .arr _ :: rest | .map _ :: rest | .index _ _ :: rest
  | .field _ _ :: rest | .letE _ _ :: rest | .unary _ _ :: rest | .paren _ :: rest | .ifE _ _ _ :: rest | .call _ _ :: rest => by
    have h3 := evalAsserts_tally rest
    simp only [nodesAll, tevalAsserts, evalAsserts]
    exact Tally.mono (by omega) (.tick h3)

end

/-- Native functions do not touch the requests. -/
theorem callNative_requests (name : Str) (vs : List (Value F)) (s : St F) : (callNative name vs s).2.ctx.requests = s.ctx.requests := by
  unfold callNative
  split
  · cases nativeFormat vs <;> rfl
  split
  · cases nativeFormat vs <;> rfl
  split
  · rfl
  split
  · rfl
  split <;> rfl

/-- Without requests a call takes no further steps. -/
theorem callAt_zero_tally (net : Net) (name : Str) (vs : List (Value F)) : Tally [] 0 (tcallAt net 0 name vs) (callAt net 0 name vs) := by
  intro s hs
  have : s.ctx.request name = none := by unfold Context.request; rw [hs]; rfl
  unfold tcallAt callAt
  rw [this]
  exact ⟨rfl, Nat.le_refl _, (callNative_requests name vs s).trans hs⟩

theorem inLocal_tally {α : Type} {rq : List (Str × (Str × List (Expr F)))} {k : Nat} {x : MC F α} {y : M F α} (map : List (Str × Value F))
    (h : Tally [] k x y) : Tally rq k (tinLocal map x) (inLocal map y) := by
  intro s hs
  obtain ⟨h1, h2, h3⟩ := h { s with ctx := Context.ofMap map } rfl
  unfold tinLocal inLocal
  dsimp only
  generalize hy : y { s with ctx := Context.ofMap map } = r at *
  generalize hz : x { s with ctx := Context.ofMap map } = z at *
  obtain ⟨⟨res, s'⟩, n⟩ := z
  dsimp only at h1 h2
  subst h1
  cases res <;> exact ⟨rfl, h2, hs⟩

theorem callRequest_tally (net : Net) {rq : List (Str × (Str × List (Expr F)))} (name message : Str) (asserts : List (Expr F)) :
    Tally rq (nodesAll 0 asserts) (tcallRequest net (tcallAt net 0) name message asserts) (callRequest net (callAt net 0) name message asserts) := by
  unfold tcallRequest callRequest
  refine Tally.mono (k := 0 + (0 + (0 + (0 + (nodesAll 0 asserts + (0 + 0)))))) (by omega) ?_
  refine .bind (.free fun _ => rfl) fun s => .bind (.free fun _ => rfl) fun _ => .bind (.lift _) fun p => .bind (.lift _) fun map =>
    .bind (inLocal_tally map (evalAsserts_tally (callAt_zero_tally net) asserts)) fun q => .bind (.free fun _ => rfl) fun _ => .pure _

/-- A call takes at most as many further steps as the asserts of a request have nodes. -/
theorem callAt_tally (net : Net) {rq : List (Str × (Str × List (Expr F)))} {a : Nat} (hrq : ∀ name message asserts, amGet name rq = some (message, asserts) → nodesAll 0 asserts ≤ a)
    (name : Str) (vs : List (Value F)) : Tally rq a (tcallAt net 1 name vs) (callAt net 1 name vs) := by
  intro s hs
  unfold tcallAt callAt
  cases hr : s.ctx.request name with
  | none => exact ⟨rfl, Nat.zero_le _, (callNative_requests name vs s).trans hs⟩
  | some p =>
    obtain ⟨message, asserts⟩ := p
    have h := hrq name message asserts (by rw [← hs]; exact hr)
    exact Tally.mono h (callRequest_tally net name message asserts) s hs

end Am
