import Verif.Props.Evaluating
/-! # C21 - C23: asserts, records and the printed report -/
set_option linter.unusedSimpArgs false
set_option linter.unusedSectionVars false
namespace Am
open Spec
variable {F : Type} [Rt F]

/-! ## C21 -/

/-- C21: two calls — in any two contexts, under any names, with any templates, over any two networks — that get the same response and have
the same asserts record the same assert results, return the same value and print the same text; or both panic, or both never end. -/
theorem c21_only_response (net net' : Net) (name name' template template' : Str) (asserts : List (Expr F)) (s s' : St F) (args args' : List (Value F))
    (rq rq' : Request) (rs : Response) (t t' : Time) (e e' : Str)
    (h : s.ctx.request name = some (template, asserts)) (h' : s'.ctx.request name' = some (template', asserts))
    (hs : send net s.sent (render s.ctx template) = .ok (rq, rs, t, e)) (hs' : send net' s'.sent (render s'.ctx template') = .ok (rq', rs, t', e')) :
    (callAt net 1 name args s).1 = (callAt net' 1 name' args' s').1 ∧
    ∃ o, (callAt net 1 name args s).2.out = s.out ++ o ∧ (callAt net' 1 name' args' s').2.out = s'.out ++ o ∧
    ((∃ as, (callAt net 1 name args s).2.ctx.records = s.ctx.records ++ [⟨name, t, rq, rs, as, e⟩] ∧
            (callAt net' 1 name' args' s').2.ctx.records = s'.ctx.records ++ [⟨name', t', rq', rs, as, e'⟩]) ∨
      (callAt net 1 name args s).1 = .panic ∨ (callAt net 1 name args s).1 = .hang) := by
  rw [callAt_some net args h, callAt_some net' args' h']
  unfold callRequest
  rw [M.bind_ok (m := M.get) (s' := s) (a := s) rfl, M.bind_ok (m := M.get) (s' := s') (a := s') rfl]
  dsimp only
  rw [M.bind_ok (M.modify_run _ _), M.bind_ok (M.modify_run _ _), hs, hs', M.bind_ok (M.lift_run _ _), M.bind_ok (M.lift_run _ _)]
  dsimp only
  cases hm : rs.toMap (F := F) with
  | err e => exact absurd hm (toMap_not_err _ _)
  | panic =>
    rw [M.bind_panic (M.lift_run _ _), M.bind_panic (M.lift_run _ _)]
    exact ⟨rfl, [], by simp, by simp, Or.inr (Or.inl rfl)⟩
  | hang =>
    rw [M.bind_hang (M.lift_run _ _), M.bind_hang (M.lift_run _ _)]
    exact ⟨rfl, [], by simp, by simp, Or.inr (Or.inr rfl)⟩
  | ok map =>
    rw [M.bind_ok (M.lift_run _ _), M.bind_ok (M.lift_run _ _)]
    obtain ⟨r, ctx', o, h1, _, _, h4⟩ := evalAsserts_local net net' 0 0 asserts (Context.ofMap map) rfl
    have h5 := (h4 (s.sent ++ [render s.ctx template]) s.out).1
    have h6 := (h4 (s'.sent ++ [render s'.ctx template']) s'.out).2
    cases r with
    | hang => exact absurd rfl h1
    | err e' =>
      have := evalAsserts_not_err (callAt net 0) e' asserts ⟨Context.ofMap map, s.sent ++ [render s.ctx template], s.out⟩
      rw [h5] at this
      exact absurd rfl this
    | panic =>
      rw [M.bind_panic (s' := ⟨s.ctx, s.sent ++ [render s.ctx template], s.out ++ o⟩),
        M.bind_panic (s' := ⟨s'.ctx, s'.sent ++ [render s'.ctx template'], s'.out ++ o⟩)]
      · exact ⟨rfl, o, rfl, rfl, Or.inr (Or.inl rfl)⟩
      · simp only [inLocal, h6]
      · simp only [inLocal, h5]
    | ok as =>
      rw [M.bind_ok (s' := ⟨s.ctx, s.sent ++ [render s.ctx template], s.out ++ o⟩) (a := (as, ctx'.inner)),
        M.bind_ok (s' := ⟨s'.ctx, s'.sent ++ [render s'.ctx template'], s'.out ++ o⟩) (a := (as, ctx'.inner))]
      · exact ⟨rfl, o, rfl, rfl, Or.inl ⟨as, rfl, rfl⟩⟩
      · simp only [inLocal, h6]
      · simp only [inLocal, h5]

/-- C21: a request call sends exactly one message — so its asserts send none — and changes no variable of the caller. -/
theorem c21_isolated (net : Net) (name template : Str) (asserts : List (Expr F)) (s : St F) (args : List (Value F))
    (h : s.ctx.request name = some (template, asserts)) :
    (callAt net 1 name args s).2.sent = s.sent ++ [render s.ctx template] ∧ (callAt net 1 name args s).2.ctx.inner = s.ctx.inner := by
  rw [callAt_some net args h]
  rcases callRequest_cases net 0 name template asserts s with ⟨rq, rs, t, e, map, as, ctx', o, h1, h2, h3, h4⟩ | ⟨o, h1, h2⟩ | ⟨o, h1, h2⟩
  · rw [h4]; exact ⟨rfl, rfl⟩
  · rw [h1]; exact ⟨rfl, rfl⟩
  · rw [h1]; exact ⟨rfl, rfl⟩

def sameVarsGrade (_ : Nat) (_ : Out) (a b : St F) : Prop := a.ctx.requests = [] → b.ctx.requests = [] ∧ b.ctx.inner = a.ctx.inner

theorem sameVars_grade : Grade (F := F) sameVarsGrade where
  refl _ h := ⟨h, rfl⟩
  comp h1 h2 h := ⟨(h2 (h1 h).1).1, (h2 (h1 h).1).2.trans (h1 h).2⟩
  mono _ h := h

/-- C21: a request call returns the map of the response when no assert contains a `let`. -/
theorem c21_returns_response (net : Net) (name template : Str) (asserts : List (Expr F)) (s : St F) (args : List (Value F))
    (h : s.ctx.request name = some (template, asserts)) (hl : letsList asserts = [])
    (v : Value F) (hv : (callAt net 1 name args s).1 = .ok v) :
    ∃ rq rs t e map, send net s.sent (render s.ctx template) = .ok (rq, rs, t, e) ∧ rs.toMap = .ok map ∧ v = .map map := by
  rw [callAt_some net args h] at hv
  rcases callRequest_cases net 0 name template asserts s with ⟨rq, rs, t, e, map, as, ctx', o, h1, h2, h3, h4⟩ | ⟨o, h1, h2⟩ | ⟨o, h1, h2⟩
  · rw [h4] at hv
    refine ⟨rq, rs, t, e, map, h1, h2, ?_⟩
    injection hv with hv
    have := evalAsserts_closed (P := fun {_} n m _ => Obeys sameVarsGrade n m) (call := callAt net 0) (call' := callAt net 0) sameVars_grade.closed
      (fun name vs s => by
        intro h
        rw [callAt_noRequests _ _ _ _ _ h]
        exact callNative_closed (P := fun {_} n m _ => Obeys sameVarsGrade n m) sameVars_grade.closed (fun t s h => ⟨h, rfl⟩) name vs s h)
      (fun d h => Obeys.orElse d h) asserts (fun n hn => by rw [hl] at hn; cases hn) (fun _ _ => Or.inl (fun _ s h => ⟨h, rfl⟩))
      ⟨Context.ofMap map, [], []⟩ rfl
    rw [h3] at this
    rw [← hv, this.2]
    rfl
  · rw [h1] at hv; cases hv
  · rw [h1] at hv; cases hv

/-- Concrete case: an assert with a `let` does change the returned map, so the hypothesis is needed. -/
example (net : Net) : (evalAsserts (callAt net 0) [.binary ⟨.Eq, c!"=="⟩ (.letE c!"x" (.int 1)) (.int 1)] (⟨Context.ofMap [], [], []⟩ : St F)).2.ctx.inner
    = [(c!"x", .int 1)] := rfl

/-! ## C22 -/

/-- The comparison operators. -/
def IsComparison (k : Kind) : Prop := k = .Lt ∨ k = .Gt ∨ k = .Le ∨ k = .Ge ∨ k = .Eq ∨ k = .Ne

/-- The outcome of a comparison operator on two values, as the evaluator computes it in an expression (C26). -/
def compareHolds (k : Kind) (a b : Value F) (r : Bool) : Prop := ∃ op, binaryOp k = some op ∧ op a b = .ok (.bool r)

/-- The value of an operand of an assert: null if it cannot be evaluated. -/
def operand : Res (Value F) → Option (Value F)
  | .ok v => some v
  | .err _ => some .null
  | _ => none

/-- The asserts are evaluated in order, operands left to right, each in the state left by the one before, and each comparison is recorded
with its text, its operands' texts and its outcome. An assert with another binary operator is evaluated but not recorded; an assert that is no
binary expression is skipped. -/
inductive Asserted (call : Call F) : List (Expr F) → St F → List Assert → St F → Prop
  | nil (s : St F) : Asserted call [] s [] s
  | cons {t : Token} {l r : Expr F} {rest : List (Expr F)} {s s1 s2 s3 : St F} {x y : Res (Value F)} {a b : Value F} {result : Bool} {as : List Assert} :
      evalExpr call l s = (x, s1) → operand x = some a → evalExpr call r s1 = (y, s2) → operand y = some b →
      compareHolds t.kind a b result → IsComparison t.kind → Asserted call rest s2 as s3 →
      Asserted call (.binary t l r :: rest) s (⟨l.display ++ c!" " ++ t.literal ++ c!" " ++ r.display, a.display, t.literal, b.display, result⟩ :: as) s3
  | dropped {t : Token} {l r : Expr F} {rest : List (Expr F)} {s s1 s2 s3 : St F} {x y : Res (Value F)} {a b : Value F} {as : List Assert} :
      evalExpr call l s = (x, s1) → operand x = some a → evalExpr call r s1 = (y, s2) → operand y = some b →
      ¬ IsComparison t.kind → Asserted call rest s2 as s3 → Asserted call (.binary t l r :: rest) s as s3
  | skipped {e : Expr F} {rest : List (Expr F)} {s s1 : St F} {as : List Assert} :
      (∀ t l r, e ≠ .binary t l r) → Asserted call rest s as s1 → Asserted call (e :: rest) s as s1

/-- The assert is a comparison. -/
def IsComparing (e : Expr F) : Prop := ∃ t a b, e = .binary t a b ∧ IsComparison t.kind

theorem compare_some {k : Kind} (h : IsComparison k) (a b : Value F) : ∃ r, compareValues k a b = some r ∧ compareHolds k a b r := by
  rcases h with h | h | h | h | h | h <;> subst h <;> exact ⟨_, rfl, _, rfl, rfl⟩

theorem compare_none {k : Kind} (h : ¬ IsComparison k) (a b : Value F) : compareValues k a b = none := by
  cases k <;> first | rfl | exact absurd (by simp [IsComparison]) h

theorem orElse_operand {x : M F (Value F)} {s s1 : St F} {a : Value F} (h : (x.orElse .null) s = (.ok a, s1)) :
    ∃ r, x s = (r, s1) ∧ operand r = some a := by
  unfold M.orElse at h
  match hx : x s with
  | (.ok v, s') => rw [hx] at h; cases h; exact ⟨_, rfl, rfl⟩
  | (.err e, s') => rw [hx] at h; cases h; exact ⟨_, rfl, rfl⟩
  | (.panic, s') => rw [hx] at h; cases h
  | (.hang, s') => rw [hx] at h; cases h

theorem M.bind_ok_inv {α β : Type} {x : M F α} {f : α → M F β} {s s2 : St F} {b : β} (h : (x >>= f) s = (.ok b, s2)) :
    ∃ a s1, x s = (.ok a, s1) ∧ f a s1 = (.ok b, s2) := by
  match hx : x s with
  | (.ok a, s1) => rw [M.bind_ok hx] at h; exact ⟨a, s1, rfl, h⟩
  | (.err _, s1) => rw [M.bind_err hx] at h; cases h
  | (.panic, s1) => rw [M.bind_panic hx] at h; cases h
  | (.hang, s1) => rw [M.bind_hang hx] at h; cases h

theorem asserted (call : Call F) : ∀ (l : List (Expr F)) (s s' : St F) (as : List Assert), evalAsserts call l s = (.ok as, s') →
    Asserted call l s as s' := by
  intro l
  induction l with
  | nil => intro s s' as h; cases h; exact .nil s
  | cons e l ih =>
    intro s s' as h
    cases e with
    | binary t x y =>
      simp only [evalAsserts] at h
      obtain ⟨a, s1, h1, h⟩ := M.bind_ok_inv h
      obtain ⟨b, s2, h2, h⟩ := M.bind_ok_inv h
      obtain ⟨as', s3, h3, h⟩ := M.bind_ok_inv h
      obtain ⟨r1, h1, o1⟩ := orElse_operand h1
      obtain ⟨r2, h2, o2⟩ := orElse_operand h2
      by_cases ht : IsComparison t.kind
      · obtain ⟨r, hr, hh⟩ := compare_some ht a b
        rw [hr] at h
        cases h
        exact .cons h1 o1 h2 o2 hh ht (ih _ _ _ h3)
      · rw [compare_none ht] at h
        cases h
        exact .dropped h1 o1 h2 o2 ht (ih _ _ _ h3)
    | _ => exact .skipped (by intro _ _ _ h; cases h) (ih _ _ _ (by simpa only [evalAsserts] using h))

/-- C22, what holds for every list of asserts: a completed request call records the results of the comparisons among its asserts, in order,
each with the outcome of its comparison (an operand that cannot be evaluated counting as null), and asserts never make the call fail.
Not covered (and false, see below): asserts that are no comparisons, and that an assert with an operand that cannot be evaluated fails. -/
theorem c22_recorded_partial (net : Net) (name template : Str) (asserts : List (Expr F)) (s : St F) (args : List (Value F))
    (h : s.ctx.request name = some (template, asserts)) :
    (∀ m, (callAt net 1 name args s).1 ≠ .err m) ∧
    (∀ v s', callAt net 1 name args s = (.ok v, s') → ∃ rec map final, s'.ctx.records = s.ctx.records ++ [rec] ∧ rec.response.toMap = .ok map ∧
      Asserted (callAt net 0) asserts ⟨Context.ofMap map, [], []⟩ rec.asserts final ∧ v = .map final.ctx.inner) := by
  rw [callAt_some net args h]
  rcases callRequest_cases net 0 name template asserts s with ⟨rq, rs, t, e, map, as, ctx', o, h1, h2, h3, h4⟩ | ⟨o, h1, h2⟩ | ⟨o, h1, h2⟩
  · rw [h4]
    refine ⟨by simp, fun v s' hv => ?_⟩
    injection hv with hv hs
    injection hv with hv
    subst hs
    exact ⟨_, map, _, rfl, h2, asserted _ _ _ _ _ (h3 [] []), hv.symm⟩
  · rw [h1]; exact ⟨by simp, fun v s' hv => by cases hv⟩
  · rw [h1]; exact ⟨by simp, fun v s' hv => by cases hv⟩

/-- The text of a comparison. -/
inductive ComparisonText : Expr F → Str → Prop
  | mk (t : Token) (l r : Expr F) : IsComparison t.kind → ComparisonText (.binary t l r) (l.display ++ c!" " ++ t.literal ++ c!" " ++ r.display)

/-- The texts of the comparisons of a list, in order. -/
inductive ComparisonTexts : List (Expr F) → List Str → Prop
  | nil : ComparisonTexts [] []
  | cons {e : Expr F} {t : Str} {es : List (Expr F)} {ts : List Str} : ComparisonText e t → ComparisonTexts es ts → ComparisonTexts (e :: es) (t :: ts)
  | skip {e : Expr F} {es : List (Expr F)} {ts : List Str} : ¬ IsComparing e → ComparisonTexts es ts → ComparisonTexts (e :: es) ts

/-- C22: the texts recorded are those of the comparisons, in order. -/
theorem c22_count_partial {call : Call F} {l : List (Expr F)} {s s' : St F} {as : List Assert} (h : Asserted call l s as s') :
    ComparisonTexts l (as.map Assert.expr) := by
  induction h with
  | nil => exact .nil
  | cons _ _ _ _ _ ht _ ih => exact .cons (.mk _ _ _ ht) ih
  | dropped _ _ _ _ ht _ ih => exact .skip (by rintro ⟨t, a, b, he, h⟩; cases he; exact ht h) ih
  | skipped hn _ ih => exact .skip (by rintro ⟨t, a, b, he, h⟩; exact hn t a b he) ih

theorem comparisonTexts_length {l : List (Expr F)} {ts : List Str} (h : ComparisonTexts l ts) :
    ts.length ≤ l.length ∧ (ts.length = l.length ↔ ∀ e ∈ l, IsComparing e) := by
  induction h with
  | nil => simp
  | cons h1 _ ih =>
    obtain ⟨t, a, b, h⟩ := h1
    have hc : IsComparing (.binary t a b) := ⟨t, a, b, rfl, h⟩
    simp only [List.length_cons, List.mem_cons, forall_eq_or_imp, hc, true_and, Nat.add_right_cancel_iff, Nat.add_le_add_iff_right]
    exact ih
  | skip hn _ ih =>
    simp only [List.length_cons, List.mem_cons, forall_eq_or_imp, hn, false_and, iff_false]
    exact ⟨by omega, by omega⟩

/-- C22: one result per assert exactly when every assert is a comparison; otherwise there are fewer results than asserts. -/
theorem c22_exact {call : Call F} {l : List (Expr F)} {s s' : St F} {as : List Assert} (h : Asserted call l s as s') :
    as.length ≤ l.length ∧ (as.length = l.length ↔ ∀ e ∈ l, IsComparing e) := by
  have := comparisonTexts_length (c22_count_partial h)
  rwa [List.length_map] at this

/-- C22: an assert one of whose operands cannot be evaluated (so that it counts as null) is recorded as failed exactly if it is an order
comparison, an equality with a value other than null, or an inequality with null or with another operand that cannot be evaluated. -/
theorem c22_broken_exact (k : Kind) (hk : IsComparison k) (a : Value F) (r : Bool) (h : compareHolds k a .null r ∨ compareHolds k .null a r) :
    r = false ↔ (k ≠ .Eq ∧ k ≠ .Ne) ∨ (k = .Eq ∧ a ≠ .null) ∨ (k = .Ne ∧ a = .null) := by
  rcases hk with rfl | rfl | rfl | rfl | rfl | rfl
  all_goals rcases h with ⟨op, h1, h2⟩ | ⟨op, h1, h2⟩ <;> (injection h1 with h1; subst h1; injection h2 with h2; injection h2 with h2; subst h2)
  all_goals cases a <;> simp [Value.eq, Value.lt, Value.gt, Value.le, Value.ge, Value.cmp]

/-- C22: with exactly one operand that cannot be evaluated, and the other not null, an assert other than `!=` fails. -/
theorem c22_broken_fails_partial (k : Kind) (hk : IsComparison k) (hn : k ≠ .Ne) (a : Value F) (ha : a ≠ .null) (r : Bool)
    (h : compareHolds k a .null r ∨ compareHolds k .null a r) : r = false := by
  rcases hk with rfl | rfl | rfl | rfl | rfl | rfl
  all_goals first | exact absurd rfl hn | skip
  all_goals rcases h with ⟨op, h1, h2⟩ | ⟨op, h1, h2⟩ <;> (injection h1 with h1; subst h1; injection h2 with h2; injection h2 with h2; subst h2)
  all_goals cases a <;> first | rfl | exact absurd rfl ha | simp [Value.eq]

/-- C22 is false: an assert both of whose operands cannot be evaluated (`missing == missing`) is recorded as passed. -/
theorem c22_broken_passes (net : Net) (map : List (Str × Value F)) (h : amGet c!"missing" map = none) (sent : List Str) (out : Str) :
    evalAsserts (callAt net 0) [.binary ⟨.Eq, c!"=="⟩ (.ident c!"missing") (.ident c!"missing")] ⟨Context.ofMap map, sent, out⟩ =
    (.ok [⟨c!"missing == missing", c!"null", c!"==", c!"null", true⟩], ⟨Context.ofMap map, sent, out⟩) := by
  have h1 : evalExpr (callAt net 0) (.ident c!"missing") ⟨Context.ofMap map, sent, out⟩ = (.err c!"ident:missing not found", ⟨Context.ofMap map, sent, out⟩) := by
    simp only [evalExpr, Context.get, Context.ofMap, h]
    rfl
  have h2 : ((evalExpr (callAt net 0) (.ident c!"missing")).orElse .null) ⟨Context.ofMap map, sent, out⟩ = (.ok .null, ⟨Context.ofMap map, sent, out⟩) := by
    unfold M.orElse; rw [h1]
  simp only [evalAsserts]
  rw [M.bind_ok h2, M.bind_ok h2]
  rfl

/-- C22 is false: so is `missing != 1`. -/
theorem c22_broken_ne_passes (net : Net) (map : List (Str × Value F)) (h : amGet c!"missing" map = none) (sent : List Str) (out : Str) :
    (evalAsserts (callAt net 0) [.binary ⟨.Ne, c!"!="⟩ (.ident c!"missing") (.int 1)] ⟨Context.ofMap map, sent, out⟩).1 =
    .ok [⟨c!"missing != 1", c!"null", c!"!=", c!"1", true⟩] := by
  have h1 : evalExpr (callAt net 0) (.ident c!"missing") ⟨Context.ofMap map, sent, out⟩ = (.err c!"ident:missing not found", ⟨Context.ofMap map, sent, out⟩) := by
    simp only [evalExpr, Context.get, Context.ofMap, h]
    rfl
  have h2 : ((evalExpr (callAt net 0) (.ident c!"missing")).orElse .null) ⟨Context.ofMap map, sent, out⟩ = (.ok .null, ⟨Context.ofMap map, sent, out⟩) := by
    unfold M.orElse; rw [h1]
  simp only [evalAsserts]
  rw [M.bind_ok h2]
  rfl

/-- C22 is false: an assert that is not a binary expression is dropped without a record — here the assert `false`. -/
theorem c22_dropped (net : Net) (s : St F) : evalAsserts (callAt net 0) [.bool false] s = (.ok [], s) := rfl

/-- C22 is false: so is `a && b`, even with both operands false. -/
theorem c22_conjunction_dropped (net : Net) (s : St F) :
    evalAsserts (callAt net 0) [.binary ⟨.La, c!"&&"⟩ (.bool false) (.bool false)] s = (.ok [], s) := rfl

/-- Concrete case for `c22_recorded_partial` and `c22_exact`: three asserts, one result. -/
example (call : Call F) (s : St F) : Asserted call [.bool false, .binary ⟨.Eq, c!"=="⟩ (.int 1) (.int 2), .binary ⟨.La, c!"&&"⟩ (.bool false) (.bool true)] s
    [⟨c!"1 == 2", c!"1", c!"==", c!"2", false⟩] s := by
  have h : Asserted call [.binary ⟨.La, c!"&&"⟩ (.bool false) (.bool true)] s [] s := .dropped rfl rfl rfl rfl (by simp [IsComparison]) (.nil s)
  refine .skipped (by intro _ _ _ h; cases h) ?_
  refine Asserted.cons (t := ⟨.Eq, c!"=="⟩) (x := .ok (.int 1)) (y := .ok (.int 2)) rfl rfl rfl rfl ⟨_, rfl, ?_⟩ (by simp [IsComparison]) h
  simp [Value.eq]

/-! ## C23 -/

theorem foldl_and (l : List Assert) : ∀ b : Bool, l.foldl (fun f a => f && a.result) b = true ↔ b = true ∧ ∀ a ∈ l, a.result = true := by
  induction l with
  | nil => intro b; simp
  | cons a l ih =>
    intro b
    simp only [List.foldl_cons, ih, Bool.and_eq_true, List.mem_cons]
    constructor
    · rintro ⟨⟨h1, h2⟩, h3⟩
      exact ⟨h1, fun x hx => hx.elim (fun h => h ▸ h2) (h3 x)⟩
    · rintro ⟨h1, h2⟩
      exact ⟨⟨h1, h2 a (Or.inl rfl)⟩, fun x hx => h2 x (Or.inr hx)⟩

/-- What a record's report is, apart from the verdict: everything before it and everything after it. -/
def reportBefore (r : Record) : Str :=
  c!"=== TEST  " ++ r.name ++ c!"\n" ++
    (r.asserts.map fun a => a.expr ++ c!" => " ++ a.left ++ c!" " ++ a.compare ++ c!" " ++ a.right ++ c!" => " ++ (if a.result then c!"true" else c!"false") ++ c!"\n").flatten ++
    c!"--- "

def reportAfter (r : Record) : Str := c!"  " ++ r.name ++ c!" (" ++ durText r.time.total ++ c!")"

theorem text_eq (r : Record) : r.text = reportBefore r ++ ((if r.flag then c!"PASS" else c!"FAIL") ++ reportAfter r) := by
  have h : r.asserts.flatMap Assert.reportLine = (r.asserts.map fun a => a.expr ++ c!" => " ++ a.left ++ c!" " ++ a.compare ++ c!" " ++ a.right ++
    c!" => " ++ (if a.result then c!"true" else c!"false") ++ c!"\n").flatten := rfl
  unfold Record.text reportBefore reportAfter
  rw [h]
  simp only [List.append_assoc]

/-- C23: an assert by itself (`Display for Assert`) is written like its line in the report, the comparison between parentheses and without
the line feed. -/
theorem c23_assert_text (a : Assert) (x : Str) (h : a.reportLine = a.expr ++ c!" => " ++ x ++ c!"\n") :
    ∃ l, x = l ++ c!" => " ++ (if a.result then c!"true" else c!"false") ∧
      a.text = a.expr ++ c!" => (" ++ l ++ c!") => " ++ (if a.result then c!"true" else c!"false") ∧ l = a.left ++ c!" " ++ a.compare ++ c!" " ++ a.right := by
  refine ⟨_, ?_, by unfold Assert.text boolStr; simp only [List.append_assoc], rfl⟩
  have e : a.reportLine = a.expr ++ c!" => " ++ (a.left ++ c!" " ++ a.compare ++ c!" " ++ a.right ++ c!" => " ++ (if a.result then c!"true" else c!"false")) ++ c!"\n" := by
    unfold Assert.reportLine boolStr
    simp only [List.append_assoc]
  rw [e] at h
  exact (List.append_cancel_left (List.append_cancel_right h)).symm

/-- Concrete case. -/
example : (⟨c!"a == 1", c!"2", c!"==", c!"1", false⟩ : Assert).text = c!"a == 1 => (2 == 1) => false" := rfl

/-- C23, the part that holds: the report says PASS exactly when every recorded assert is true, and FAIL exactly when one is false. -/
theorem c23_verdict_partial (r : Record) :
    (r.text = reportBefore r ++ (c!"PASS" ++ reportAfter r) ↔ ∀ a ∈ r.asserts, a.result = true) ∧
    (r.text = reportBefore r ++ (c!"FAIL" ++ reportAfter r) ↔ ∃ a ∈ r.asserts, a.result = false) := by
  have h := foldl_and r.asserts true
  have hf : r.flag = true ↔ ∀ a ∈ r.asserts, a.result = true := by
    unfold Record.flag
    rw [h]; simp
  rw [text_eq]
  refine ⟨⟨fun he => ?_, fun ha => by rw [hf.2 ha]; rfl⟩, fun he => ?_, fun ha => ?_⟩
  · refine hf.1 ?_
    have he := List.append_cancel_left he
    cases hb : r.flag with
    | true => rfl
    | false => rw [hb] at he; exact absurd he (by simp)
  · have he := List.append_cancel_left he
    cases hb : r.flag with
    | true => rw [hb] at he; exact absurd he (by simp)
    | false =>
      apply Classical.byContradiction
      intro hn
      have : r.flag = true := hf.2 fun a ha => by
        cases hr : a.result with
        | true => rfl
        | false => exact absurd ⟨a, ha, hr⟩ hn
      rw [hb] at this; cases this
  · obtain ⟨a, ha, hr⟩ := ha
    cases hb : r.flag with
    | true => have := hf.1 hb a ha; rw [hr] at this; cases this
    | false => rfl

/-- C23, exactly for which records it holds: those of exchanges that succeeded and those with a failed assert. -/
theorem c23_exact (r : Record) :
    (r.text = reportBefore r ++ (c!"PASS" ++ reportAfter r) ↔ (∀ a ∈ r.asserts, a.result = true) ∧ r.error = []) ↔
    (r.error = [] ∨ ∃ a ∈ r.asserts, a.result = false) := by
  rw [(c23_verdict_partial r).1]
  by_cases he : r.error = []
  · simp [he]
  · simp only [he, and_false, iff_false, false_or]
    constructor
    · intro h
      apply Classical.byContradiction
      intro hn
      refine h fun a ha => ?_
      cases hr : a.result with
      | true => rfl
      | false => exact absurd ⟨a, ha, hr⟩ hn
    · rintro ⟨a, ha, hr⟩ h
      rw [h a ha] at hr
      cases hr

/-- C23 is false: calling a request without asserts whose connection is refused records the error, and the report says PASS. -/
theorem c23_failed_exchange_passes (k : Clocks) :
    ∃ (net : Net) (s : St F) (rec : Record),
      (runBlock net [.call c!"ping" []] s).2.ctx.records = s.ctx.records ++ [rec] ∧ rec.error = c!"tcp connect failed" ∧
      rec.text = reportBefore rec ++ (c!"PASS" ++ reportAfter rec) := by
  let net : Net := ⟨fun _ _ => .refused .tcpConnectFailed k, fun _ => none⟩
  let s : St F := ⟨⟨[], [(c!"ping", (c!"GET http://localhost/", []))], []⟩, [], []⟩
  let rq := (Request.ofStr net.multipart c!"GET http://localhost/").1
  refine ⟨net, s, ⟨c!"ping", .default k.sys0, rq, .default, [], c!"tcp connect failed"⟩, ?_, rfl, ?_⟩
  · rfl
  · exact (c23_verdict_partial _).1.2 (by simp)

end Am
