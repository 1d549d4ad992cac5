import Verif.Proofs.StackRoom
import Verif.Proofs.Eval
/-! # Nested calls of the evaluator -/
set_option linter.unusedSimpArgs false
set_option linter.unusedSectionVars false
namespace Am
open Spec
variable {F : Type} [Rt F]

/-- A relation between computations that relates each step of the evaluator to itself and is closed under sequencing. -/
structure Stepwise (P : {α : Type} → M F α → M F α → Prop) : Prop where
  bind : ∀ {α β : Type} {x y : M F α} {f g : α → M F β}, P x y → (∀ a, P (f a) (g a)) → P (x >>= f) (y >>= g)
  ident : ∀ n, P (readVar n) (readVar n)
  set : ∀ n v, P (writeVar n v) (writeVar n v)
  lift : ∀ {α : Type} (r : Res α), P (M.lift r) (M.lift r)

theorem Stepwise.pure {P : {α : Type} → M F α → M F α → Prop} (g : Stepwise P) {α : Type} (a : α) : P (M.pure a) (M.pure a) := g.lift (.ok a)

/-- Crashes are related to everything. -/
def CrashUnder (P : {α : Type} → M F α → M F α → Prop) : Prop := ∀ {α : Type} (m : M F α), P (M.lift .panic) m

variable {P : {α : Type} → M F α → M F α → Prop}

section
variable (g : Stepwise (F := F) P) {r : Nat} {call : Nat → Call F} {call' : Call F}
  (hcall : ∀ d f vs, (r ≤ d ∨ CrashUnder P) → P (call d f vs) (call' f vs))
include g hcall

mutual
theorem evalExprIn_step : ∀ (e : Expr F) (d : Nat), (height e + r ≤ d ∨ CrashUnder P) → P (evalExprIn call e d) (evalExpr call' e)
  | .int i, 0, h => by
    rcases h with h | h
    · simp only [height] at h; omega
    · exact h _
  | .int i, d + 1, h => g.pure _
  | .float i, 0, h => by
    rcases h with h | h
    · simp only [height] at h; omega
    · exact h _
  | .float i, d + 1, h => g.pure _
  | .bool i, 0, h => by
    rcases h with h | h
    · simp only [height] at h; omega
    · exact h _
  | .bool i, d + 1, h => g.pure _
  | .str i, 0, h => by
    rcases h with h | h
    · simp only [height] at h; omega
    · exact h _
  | .str i, d + 1, h => g.pure _
  | .ident i, 0, h => by
    rcases h with h | h
    · simp only [height] at h; omega
    · exact h _
  | .ident i, d + 1, h => g.ident i
  | .arr items, 0, h => by
    rcases h with h | h
    · simp only [height] at h; omega
    · exact h _
  | .arr items, d + 1, h => by
    simp only [evalExprIn, evalExpr, height] at h ⊢
    exact g.bind (evalListIn_step items d (h.imp (by omega) id)) fun _ => g.pure _
  | .map pairs, 0, h => by
    rcases h with h | h
    · simp only [height] at h; omega
    · exact h _
  | .map pairs, d + 1, h => by
    simp only [evalExprIn, evalExpr, height] at h ⊢
    exact g.bind (evalPairsIn_step pairs [] d (h.imp (by omega) id)) fun _ => g.pure _
  | .index l i, 0, h => by
    rcases h with h | h
    · simp only [height] at h; omega
    · exact h _
  | .index l i, d + 1, h => by
    simp only [evalExprIn, evalExpr, height] at h ⊢
    exact g.bind (evalExprIn_step l d (h.imp (by omega) id)) fun _ => g.bind (evalExprIn_step i d (h.imp (by omega) id)) fun _ => g.lift _
  | .field l n, 0, h => by
    rcases h with h | h
    · simp only [height] at h; omega
    · exact h _
  | .field l n, d + 1, h => by
    simp only [evalExprIn, evalExpr, height] at h ⊢
    exact g.bind (evalExprIn_step l d (h.imp (by omega) id)) fun _ => g.lift _
  | .letE n e, 0, h => by
    rcases h with h | h
    · simp only [height] at h; omega
    · exact h _
  | .letE n e, d + 1, h => by
    simp only [evalExprIn, evalExpr, height] at h ⊢
    exact g.bind (evalExprIn_step e d (h.imp (by omega) id)) fun _ => g.bind (g.set _ _) fun _ => g.pure _
  | .unary t e, 0, h => by
    rcases h with h | h
    · simp only [height] at h; omega
    · exact h _
  | .unary t e, d + 1, h => by
    simp only [evalExprIn, evalExpr, height] at h ⊢
    exact g.bind (evalExprIn_step e d (h.imp (by omega) id)) fun _ => g.lift _
  | .binary t a b, 0, h => by
    rcases h with h | h
    · simp only [height] at h; omega
    · exact h _
  | .binary t a b, d + 1, h => by
    have iha := evalExprIn_step a d (h.imp (by simp only [height]; omega) id)
    have ihb := evalExprIn_step b d (h.imp (by simp only [height]; omega) id)
    simp only [evalExprIn, evalExpr, height, Nat.add_one_ne_zero, if_false, Nat.add_sub_cancel] at h ⊢
    cases binaryOp (F := F) t.kind with
    | some op => exact g.bind iha fun _ => g.bind ihb fun _ => g.lift _
    | none =>
      dsimp only
      split
      · refine g.bind iha fun a => ?_
        split
        · exact ihb
        · exact g.pure _
      · split
        · refine g.bind iha fun a => ?_
          split
          · exact g.pure _
          · exact ihb
        · exact g.lift _
  | .paren e, 0, h => by
    rcases h with h | h
    · simp only [height] at h; omega
    · exact h _
  | .paren e, d + 1, h => by
    simp only [evalExprIn, evalExpr, height] at h ⊢
    exact evalExprIn_step e d (h.imp (by omega) id)
  | .ifE c t e, 0, h => by
    rcases h with h | h
    · simp only [height] at h; omega
    · exact h _
  | .ifE c t e, d + 1, h => by
    simp only [evalExprIn, evalExpr, height] at h ⊢
    refine g.bind (evalExprIn_step c d (h.imp (by omega) id)) fun v => ?_
    simp only [Nat.add_sub_cancel]
    split
    · exact evalBlockIn_step e .null d (h.imp (by omega) id)
    · exact evalBlockIn_step t .null d (h.imp (by omega) id)
  | .call f args, 0, h => by
    rcases h with h | h
    · simp only [height] at h; omega
    · exact h _
  | .call f args, d + 1, h => by
    simp only [evalExprIn, evalExpr, height] at h ⊢
    exact g.bind (evalListIn_step args d (h.imp (by omega) id)) fun vs => hcall d f vs (h.imp (by omega) id)
theorem evalListIn_step : ∀ (l : List (Expr F)) (d : Nat), (heightAll l + r ≤ d ∨ CrashUnder P) → P (evalListIn call l d) (evalList call' l)
  | [], d, h => g.pure _
  | e :: l, d, h => by
    simp only [evalListIn, evalList, heightAll] at h ⊢
    exact g.bind (evalExprIn_step e d (h.imp (by omega) id)) fun _ => g.bind (evalListIn_step l d (h.imp (by omega) id)) fun _ => g.pure _
theorem evalPairsIn_step : ∀ (l : List (Expr F × Expr F)) (acc : List (Str × Value F)) (d : Nat), (heightPairs l + r ≤ d ∨ CrashUnder P) →
    P (evalPairsIn call l acc d) (evalPairs call' acc l)
  | [], acc, d, h => g.pure _
  | (k, v) :: l, acc, d, h => by
    simp only [evalPairsIn, evalPairs, heightPairs] at h ⊢
    exact g.bind (evalExprIn_step k d (h.imp (by omega) id)) fun _ => g.bind (evalExprIn_step v d (h.imp (by omega) id)) fun _ =>
      evalPairsIn_step l _ d (h.imp (by omega) id)
theorem evalBlockIn_step : ∀ (l : List (Expr F)) (acc : Value F) (d : Nat), (heightAll l + r ≤ d ∨ CrashUnder P) →
    P (evalBlockIn call l acc d) (evalBlock call' acc l)
  | [], acc, d, h => g.pure _
  | e :: l, acc, d, h => by
    simp only [evalBlockIn, evalBlock, heightAll] at h ⊢
    exact g.bind (evalExprIn_step e d (h.imp (by omega) id)) fun v => evalBlockIn_step l v d (h.imp (by omega) id)
end

theorem evalAssertsIn_step (hor : ∀ {x y : M F (Value F)} (v : Value F), P x y → P (x.orElse v) (y.orElse v)) (d : Nat) :
    ∀ (l : List (Expr F)), (heightAll l + r ≤ d ∨ CrashUnder P) → P (evalAssertsIn call d l) (evalAsserts call' l) := by
  intro l
  induction l with
  | nil => intro _; exact g.pure _
  | cons e l ih =>
    intro h
    simp only [heightAll] at h
    cases e
    case binary t a b =>
      simp only [height] at h
      simp only [evalAssertsIn, evalAsserts]
      refine g.bind (hor _ (evalExprIn_step g hcall a d (h.imp (by omega) id))) fun va => ?_
      refine g.bind (hor _ (evalExprIn_step g hcall b d (h.imp (by omega) id))) fun vb => ?_
      refine g.bind (ih (h.imp (by omega) id)) fun _ => ?_
      cases compareValues t.kind va vb <;> exact g.pure _
    all_goals
      simp only [evalAssertsIn, evalAsserts]
      exact ih (h.imp (by omega) id)
end

/-! ## A crash or the same -/

/-- `m` crashes or does what `m'` does. -/
def MUnder {α : Type} (m m' : M F α) : Prop := ∀ s, (m s).1 = .panic ∨ m s = m' s

theorem MUnder.step : Stepwise (F := F) MUnder where
  bind := by
    intro α β x y f g h hf s
    rcases h s with h1 | h1
    · left
      obtain ⟨s', hs⟩ : ∃ s', x s = (.panic, s') := ⟨(x s).2, Prod.ext h1 rfl⟩
      rw [M.bind_panic hs]
    · obtain ⟨a, s', hs⟩ : ∃ a s', x s = (a, s') := ⟨_, _, rfl⟩
      rw [hs] at h1
      cases a with
      | ok a =>
        rw [M.bind_ok hs, M.bind_ok h1.symm]
        exact hf a s'
      | err e => right; rw [M.bind_err hs, M.bind_err h1.symm]
      | panic => left; rw [M.bind_panic hs]
      | hang => right; rw [M.bind_hang hs, M.bind_hang h1.symm]
  ident := fun _ _ => Or.inr rfl
  set := fun _ _ _ => Or.inr rfl
  lift := fun _ _ => Or.inr rfl

theorem MUnder.crash : CrashUnder (F := F) MUnder := fun _ _ => Or.inl rfl

theorem MUnder.orElse {x y : M F (Value F)} (v : Value F) (h : MUnder x y) : MUnder (x.orElse v) (y.orElse v) := by
  intro s
  rcases h s with h1 | h1
  · left
    obtain ⟨s', hs⟩ : ∃ s', x s = (.panic, s') := ⟨(x s).2, Prod.ext h1 rfl⟩
    simp only [M.orElse, hs]
  · right
    simp only [M.orElse, h1]

theorem MUnder.local {α : Type} {x y : M F α} (map : List (Str × Value F)) (h : MUnder x y) : MUnder (inLocal map x) (inLocal map y) := by
  intro s
  rcases h { s with ctx := Context.ofMap map } with h1 | h1
  · left
    obtain ⟨s', hs⟩ : ∃ s', x { s with ctx := Context.ofMap map } = (.panic, s') := ⟨_, Prod.ext h1 rfl⟩
    simp only [inLocal, hs]
  · right
    simp only [inLocal, h1]

theorem MUnder.refl {α : Type} (x : M F α) : MUnder x x := fun _ => Or.inr rfl

theorem toMapIn_under (d : Nat) (r : Response) : Res.Under (r.toMapIn (F := F) d) r.toMap := by
  rcases parseIn_same (F := F) d r.body with h | h
  · left; simp only [Response.toMapIn, h]
  · right
    simp only [Response.toMapIn, h, Response.toMap]
    cases parse (F := F) r.body <;> rfl

theorem callRequestIn_under (net : Net) {call : Nat → Call F} {call' : Call F} (hcall : ∀ d f vs, MUnder (call d f vs) (call' f vs)) (d : Nat)
    (name message : Str) (asserts : List (Expr F)) :
    MUnder (callRequestIn net call d name message asserts) (callRequest net call' name message asserts) := by
  unfold callRequestIn callRequest
  refine MUnder.step.bind (.refl _) fun s => MUnder.step.bind (.refl _) fun _ => MUnder.step.bind (.refl _) fun a => ?_
  refine MUnder.step.bind ?_ fun map => ?_
  · intro s
    rcases toMapIn_under (F := F) d a.2.1 with h | h
    · left; simp only [M.lift, h]
    · right; simp only [M.lift, h]
  · refine MUnder.step.bind (.local map (evalAssertsIn_step MUnder.step (r := 0) (fun d f vs _ => hcall d f vs) .orElse d asserts (Or.inr MUnder.crash)))
      fun _ => .refl _

theorem callAtIn_under (net : Net) (n : Nat) : ∀ (d : Nat) (f : Str) (vs : List (Value F)), MUnder (callAtIn net n d f vs) (callAt net n f vs) := by
  induction n with
  | zero => intro d f vs s; exact Or.inr rfl
  | succ n ih =>
    intro d f vs s
    simp only [callAtIn, callAt]
    cases s.ctx.request f with
    | some a => exact callRequestIn_under net ih d _ _ _ s
    | none => exact Or.inr rfl

theorem runBlockIn_under (net : Net) (d : Nat) (es : List (Expr F)) : MUnder (runBlockIn net d es) (runBlock net es) :=
  evalBlockIn_step MUnder.step (r := 0) (fun d f vs _ => callAtIn_under net 1 d f vs) es .null d (Or.inr MUnder.crash)

/-! ## Enough room -/

/-- `m` and `m'` do the same wherever the requests are `reqs`, and do not change them. -/
def MSame (reqs : List (Str × (Str × List (Expr F)))) {α : Type} (m m' : M F α) : Prop :=
  ∀ s, s.ctx.requests = reqs → m s = m' s ∧ (m s).2.ctx.requests = reqs

variable {reqs : List (Str × (Str × List (Expr F)))}

theorem MSame.step : Stepwise (F := F) (MSame reqs) where
  bind := by
    intro α β x y f g h hf s hs
    obtain ⟨h1, h2⟩ := h s hs
    obtain ⟨a, s', hx⟩ : ∃ a s', x s = (a, s') := ⟨_, _, rfl⟩
    rw [hx] at h1 h2
    cases a with
    | ok a =>
      rw [M.bind_ok hx, M.bind_ok h1.symm]
      exact hf a s' h2
    | err e => rw [M.bind_err hx, M.bind_err h1.symm]; exact ⟨rfl, h2⟩
    | panic => rw [M.bind_panic hx, M.bind_panic h1.symm]; exact ⟨rfl, h2⟩
    | hang => rw [M.bind_hang hx, M.bind_hang h1.symm]; exact ⟨rfl, h2⟩
  ident := by
    intro n s hs
    refine ⟨rfl, ?_⟩
    unfold readVar
    split <;> exact hs
  set := fun n v s hs => ⟨rfl, hs⟩
  lift := fun r s hs => ⟨rfl, hs⟩

theorem MSame.orElse {x y : M F (Value F)} (v : Value F) (h : MSame reqs x y) : MSame reqs (x.orElse v) (y.orElse v) := by
  intro s hs
  obtain ⟨h1, h2⟩ := h s hs
  obtain ⟨a, s', hx⟩ : ∃ a s', x s = (a, s') := ⟨_, _, rfl⟩
  rw [hx] at h1 h2
  simp only [M.orElse, hx, ← h1]
  cases a <;> exact ⟨trivial, h2⟩

theorem MSame.local {α : Type} {x y : M F α} (map : List (Str × Value F)) (h : MSame [] x y) : MSame reqs (inLocal map x) (inLocal map y) := by
  intro s hs
  obtain ⟨h1, h2⟩ := h { s with ctx := Context.ofMap map } rfl
  obtain ⟨a, s', hx⟩ : ∃ a s', x { s with ctx := Context.ofMap map } = (a, s') := ⟨_, _, rfl⟩
  rw [hx] at h1 h2
  simp only [inLocal, hx, ← h1]
  cases a <;> exact ⟨trivial, hs⟩

theorem callNative_same (f : Str) (vs : List (Value F)) : MSame reqs (callNative f vs) (callNative f vs) := by
  intro s hs
  refine ⟨rfl, ?_⟩
  unfold callNative
  split
  · cases h : nativeFormat vs with
    | ok v => exact hs
    | err e => exact hs
    | panic => exact hs
    | hang => exact hs
  · split
    · cases h : nativeFormat vs with
      | ok v => exact hs
      | err e => exact hs
      | panic => exact hs
      | hang => exact hs
    · split
      · exact hs
      · split
        · exact hs
        · split <;> exact hs

theorem callAtIn_local (net : Net) (n d : Nat) (f : Str) (vs : List (Value F)) : MSame [] (callAtIn net n d f vs) (callAt net n f vs) := by
  intro s hs
  have : s.ctx.request f = none := by simp only [Context.request, hs, amGet]
  cases n <;> simp only [callAtIn, callAt, this] <;> exact ⟨trivial, (callNative_same f vs s hs).2⟩

theorem toMapIn_room (d : Nat) (r : Response) (h : 11 * openings (segment r.body) + 11 ≤ d) : r.toMapIn (F := F) d = r.toMap := by
  simp only [Response.toMapIn, parseIn_room (F := F) d r.body h, Response.toMap]
  cases parse (F := F) r.body <;> rfl

/-- The room that the asserts of every request and the body of every response need. -/
def AnswersFit (net : Net) (reqs : List (Str × (Str × List (Expr F)))) (r : Nat) : Prop :=
  (∀ name message asserts, (name, (message, asserts)) ∈ reqs → heightAll asserts ≤ r) ∧
  ∀ sent text request response time error, send net sent text = .ok (request, response, time, error) → 11 * openings (segment response.body) + 11 ≤ r

theorem amGet_mem' {α : Type} {k : Str} {v : α} : ∀ {m : List (Str × α)}, amGet k m = some v → (k, v) ∈ m
  | [], h => by cases h
  | (k', v') :: m, h => by
    simp only [amGet] at h
    split at h
    · rename_i hk
      cases h; subst hk
      exact List.mem_cons_self
    · exact List.mem_cons_of_mem _ (amGet_mem' h)

theorem callAtIn_same (net : Net) {r : Nat} (hr : AnswersFit net reqs r) (n d : Nat) (hd : r ≤ d) (f : Str) (vs : List (Value F)) :
    MSame reqs (callAtIn net (n + 1) d f vs) (callAt net (n + 1) f vs) := by
  intro s hs
  simp only [callAtIn, callAt]
  cases hreq : s.ctx.request f with
  | some a =>
    obtain ⟨message, asserts⟩ := a
    have hh := hr.1 f message asserts (by rw [← hs]; exact amGet_mem' hreq)
    suffices h : MSame reqs (callRequestIn net (callAtIn net n) d f message asserts) (callRequest net (callAt net n) f message asserts) from h s hs
    unfold callRequestIn callRequest
    intro s hs
    rw [M.bind_ok (m := M.get) rfl, M.bind_ok (m := M.get) rfl]
    rw [M.bind_ok (M.modify_run _ _), M.bind_ok (M.modify_run _ _)]
    cases hsend : send net s.sent (render s.ctx message) with
    | ok a =>
      obtain ⟨request, response, time, error⟩ := a
      rw [M.bind_ok (M.lift_run _ _), M.bind_ok (M.lift_run _ _)]
      dsimp only
      rw [toMapIn_room d response (Nat.le_trans (hr.2 _ _ _ _ _ _ hsend) hd)]
      refine (MSame.step (reqs := reqs)).bind (MSame.step.lift _) (fun map => ?_) _ hs
      refine MSame.step.bind (.local map (evalAssertsIn_step MSame.step (r := 0) (fun d f vs _ => callAtIn_local net n d f vs) .orElse d asserts
        (Or.inl (by omega)))) fun a => ?_
      refine MSame.step.bind (fun s hs => ⟨rfl, hs⟩) fun _ => MSame.step.pure _
    | err e => exact ⟨rfl, hs⟩
    | panic => exact ⟨rfl, hs⟩
    | hang => exact ⟨rfl, hs⟩
  | none => exact callNative_same f vs s hs

theorem runBlockIn_same (net : Net) {r d : Nat} {es : List (Expr F)} {s : St F} (hr : AnswersFit net s.ctx.requests r) (h : heightAll es + r ≤ d) :
    runBlockIn net d es s = runBlock net es s :=
  (evalBlockIn_step (P := MSame s.ctx.requests) MSame.step (r := r) (call := callAtIn net 1) (call' := callAt net 1)
    (fun d f vs hd => by
      rcases hd with hd | hd
      · exact callAtIn_same net hr 0 d hd f vs
      · exact (fun s' hs' => absurd (hd (M.pure ()) s' hs').1 (fun h => nomatch congrArg Prod.fst h))) es .null d (Or.inl h) s rfl).1

end Am
