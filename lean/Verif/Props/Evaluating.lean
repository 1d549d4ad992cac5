import Verif.Proofs.Response
import Verif.Proofs.Maps
import Verif.Props.ParsingIndex
/-! # C13, C14, C16 - C20: evaluation -/
set_option linter.unusedSimpArgs false
set_option linter.unusedSectionVars false
namespace Am
open Spec
variable {F : Type} [Rt F]

/-! ## C13 -/

theorem parse_not_panic (text : Str) : (parse text : Res (Source F)) ≠ .panic := by
  unfold parse
  rw [← c07_same_result]
  exact c07_no_panic _ _

theorem toMap_hang {r : Response} (h : r.toMap (F := F) = .hang) : (parse r.body : Res (Source F)) = .hang := by
  unfold Response.toMap at h
  split at h
  · split at h <;> cases h
  · cases h
  · cases h
  · assumption

theorem toMap_not_panic (r : Response) : r.toMap (F := F) ≠ .panic := by
  unfold Response.toMap
  split
  · split <;> simp
  · simp
  · rename_i h; exact absurd h (parse_not_panic _)
  · simp

theorem callAt_none (net : Net) {name : Str} (vs : List (Value F)) {s : St F} (h : s.ctx.request name = none) :
    callAt net 1 name vs s = callNative name vs s := by
  simp only [callAt, h]

theorem callAt_some (net : Net) {name message : Str} {asserts : List (Expr F)} (vs : List (Value F)) {s : St F}
    (h : s.ctx.request name = some (message, asserts)) : callAt net 1 name vs s = callRequest net (callAt net 0) name message asserts s := by
  simp only [callAt]
  rw [h]

/-- Every body received can be parsed in finite time (see C06 for which ones can). -/
def BodiesParse (F : Type) [Rt F] (net : Net) : Prop :=
  ∀ sent m rq rs t e, send net sent m = .ok (rq, rs, t, e) → (parse rs.body : Res (Source F)) ≠ .hang

def sentGrade (net : Net) (n : Nat) (o : Out) (a b : St F) : Prop :=
  (BodiesParse F net → o ≠ .hang) ∧ ∃ more, b.sent = a.sent ++ more ∧ more.length ≤ n

theorem sentGrade_grade (net : Net) : Grade (F := F) (sentGrade net) where
  refl s := ⟨fun _ h => (by cases h), [], by simp⟩
  comp := by
    intro m n o a b c ⟨_, x, hx, hxl⟩ ⟨h2, y, hy, hyl⟩
    exact ⟨h2, x ++ y, by rw [hy, hx, List.append_assoc], by simp; omega⟩
  mono := by
    intro m n o a b h ⟨h1, x, hx, hl⟩
    exact ⟨h1, x, hx, by omega⟩

theorem sentGrade_panic (net : Net) : AllowsPanic (F := F) (fun {_} n m _ => Obeys (sentGrade net) n m) :=
  fun _ s => ⟨fun _ h => (by cases h), [], by simp [M.lift]⟩

theorem sentGrade_write (net : Net) (n : Str) (v : Value F) : Obeys (sentGrade net) 0 (writeVar n v) :=
  fun s => ⟨fun _ h => (by cases h), [], by simp [writeVar, M.modify]⟩

theorem sentGrade_call (net : Net) (name : Str) (vs : List (Value F)) : Obeys (sentGrade net) 1 (callAt net 1 name vs) := by
  intro s
  cases hr : s.ctx.request name with
  | none =>
    rw [callAt_none net vs hr]
    refine (sentGrade_grade net).mono (Nat.zero_le _) (callNative_closed (sentGrade_grade net).closed ?_ name vs s)
    intro t s
    exact ⟨fun _ h => (by cases h), [], by simp [M.modify]⟩
  | some p =>
    obtain ⟨message, asserts⟩ := p
    rw [callAt_some net vs hr]
    rcases callRequest_cases net 0 name message asserts s with ⟨rq, rs, t, e, map, as, ctx', o, h1, h2, h3, h4⟩ | ⟨o, h1, h2⟩ | ⟨o, h1, h2⟩
    · rw [h4]; exact ⟨fun _ h => (by cases h), [_], rfl, by simp⟩
    · rw [h1]
      refine ⟨fun hb => ?_, [_], rfl, by simp⟩
      rcases h2 with h2 | ⟨rq, rs, t, e, h2, h3⟩
      · exact absurd h2 (send_not_hang _ _ _)
      · exact absurd (toMap_hang h3) (hb _ _ _ _ _ _ h2)
    · rw [h1]; exact ⟨fun _ h => (by cases h), [_], rfl, by simp⟩

theorem runBlock_sent (net : Net) (block : List (Expr F)) : Obeys (sentGrade net) (callsList block) (runBlock net block) :=
  evalBlock_closed (call := callAt net 1) (call' := callAt net 1) (sentGrade_grade net).closed (sentGrade_call net) block .null
    (fun n _ v => sentGrade_write net n v) (fun _ _ => Or.inl (sentGrade_panic net))

/-- C13: evaluation of every block in every context ends, if every body received can be parsed in finite time. -/
theorem c13_terminates (net : Net) (block : List (Expr F)) (s : St F) (hb : BodiesParse F net) : (runBlock net block s).1 ≠ .hang := by
  have := (runBlock_sent net block s).1 hb
  intro h
  rw [h] at this
  exact this rfl

/-- C13: it sends at most as many requests as there are calls written in the block, whatever the requests' asserts contain. -/
theorem c13_bounded (net : Net) (block : List (Expr F)) (s : St F) :
    ∃ more, (runBlock net block s).2.sent = s.sent ++ more ∧ more.length ≤ callsList block :=
  (runBlock_sent net block s).2

theorem inLocal_congr {α : Type} (map : List (Str × Value F)) (x y : M F α) (h : Local 0 x y) : inLocal map x = inLocal map y := by
  funext s
  obtain ⟨r, c, o, _, _, _, h4⟩ := h (Context.ofMap map) rfl
  simp only [inLocal, (h4 s.sent s.out).1, (h4 s.sent s.out).2]

/-- C13: requests do not nest, so the bound on nesting in the model (`callAt _ 1`) is no restriction. -/
theorem c13_no_nesting (net : Net) (n : Nat) : callAt (F := F) net (n + 1) = callAt net 1 := by
  funext name vs s
  simp only [callAt]
  cases s.ctx.request name with
  | none => rfl
  | some p =>
    obtain ⟨message, asserts⟩ := p
    dsimp only
    have : ∀ map, inLocal map (evalAsserts (callAt net n) asserts) = inLocal map (evalAsserts (callAt (F := F) net 0) asserts) :=
      fun map => inLocal_congr map _ _ (fun ctx h => evalAsserts_local net net n 0 asserts ctx h)
    simp only [callRequest, this]
    rfl

/-- Concrete case: a block with two calls of a request in a context that knows it. -/
example : callsList ([.call c!"ping" [], .call c!"ping" []] : List (Expr F)) = 2 := rfl

/-! ## C14 -/

/-- C14 is false: `1 / 0` panics in every build. -/
theorem c14_division_panics (net : Net) (s : St F) :
    (parse c!"1 / 0" : Res (Source F)) = .ok ⟨[.binary ⟨.Div, c!"/"⟩ (.int 1) (.int 0)], [], []⟩ ∧
    (runBlock net [.binary ⟨.Div, c!"/"⟩ (.int 1) (.int 0)] s).1 = (.panic : Res (Value F)) := ⟨rfl, rfl⟩

/-- An operator that cannot panic: not `/` or `%`; in checked builds also not `+`, `-`, `*`, `<<`, `>>` or unary `-`. -/
def SafeOp (checks : Bool) : Bool × Kind → Prop
  | (false, k) => k ≠ .Div ∧ k ≠ .Rem ∧ (checks = true → k ≠ .Add ∧ k ≠ .Sub ∧ k ≠ .Mul ∧ k ≠ .Sl ∧ k ≠ .Sr)
  | (true, k) => checks = true → k ≠ .Sub

theorem checked_not_panic (h : Rt.checks F = false) (x : Int) : checked F x ≠ .panic := by
  unfold checked; rw [h]; split <;> simp

theorem shiftAmount_not_panic (h : Rt.checks F = false) (x : Int64) : shiftAmount F x ≠ .panic := by
  unfold shiftAmount; rw [h]; split <;> simp

theorem safe_harmless {o : Bool × Kind} (h : SafeOp (Rt.checks F) o) : Harmless F o := by
  obtain ⟨u, k⟩ := o
  cases u with
  | true =>
    intro t v hk
    cases hc : Rt.checks F with
    | true =>
      have hs : t.kind ≠ .Sub := by rw [hk]; exact h hc
      unfold unaryValue
      split <;> first | (rename_i h1 _; exact absurd h1 hs) | (rename_i h1; exact absurd h1 hs) | simp
    | false =>
      unfold unaryValue
      split <;> first | exact Res.bind_ne_panic (checked_not_panic hc _) (fun _ h => by cases h) | simp
  | false =>
    obtain ⟨h1, h2, h3⟩ := h
    intro op hop a b
    unfold binaryOp at hop
    split at hop
    all_goals first | (cases hop; done) | skip
    all_goals first | exact absurd rfl h1 | exact absurd rfl h2 | skip
    all_goals (injection hop with hop; subst hop)
    all_goals first | (intro h; cases h; done) | skip
    · cases hc : Rt.checks F with
      | true => exact absurd rfl (h3 hc).1
      | false => unfold Value.add; split <;> first | exact Res.bind_ne_panic (checked_not_panic hc _) (fun _ h => by cases h) | exact (mismatch_fine _ _ _).2 | simp
    · cases hc : Rt.checks F with
      | true => exact absurd rfl (h3 hc).2.1
      | false => unfold Value.sub; split <;> first | exact Res.bind_ne_panic (checked_not_panic hc _) (fun _ h => by cases h) | exact (mismatch_fine _ _ _).2 | simp
    · cases hc : Rt.checks F with
      | true => exact absurd rfl (h3 hc).2.2.1
      | false => unfold Value.mul; split <;> first | exact Res.bind_ne_panic (checked_not_panic hc _) (fun _ h => by cases h) | exact (mismatch_fine _ _ _).2 | simp
    · unfold Value.bitxor; split <;> first | exact (mismatch_fine _ _ _).2 | simp
    · unfold Value.bitor; split <;> first | exact (mismatch_fine _ _ _).2 | simp
    · unfold Value.bitand; split <;> first | exact (mismatch_fine _ _ _).2 | simp
    · cases hc : Rt.checks F with
      | true => exact absurd rfl (h3 hc).2.2.2.1
      | false => unfold Value.shl; split <;> first | exact Res.bind_ne_panic (shiftAmount_not_panic hc _) (fun _ h => by cases h) | exact (mismatch_fine _ _ _).2 | simp
    · cases hc : Rt.checks F with
      | true => exact absurd rfl (h3 hc).2.2.2.2
      | false => unfold Value.shr; split <;> first | exact Res.bind_ne_panic (shiftAmount_not_panic hc _) (fun _ h => by cases h) | exact (mismatch_fine _ _ _).2 | simp

def noPanicGrade (rs : List (Str × (Str × List (Expr F)))) (_ : Nat) (o : Out) (a b : St F) : Prop :=
  a.ctx.requests = rs → b.ctx.requests = rs ∧ o ≠ .panic

theorem noPanic_grade (rs : List (Str × (Str × List (Expr F)))) : Grade (noPanicGrade rs) where
  refl s h := ⟨h, by simp⟩
  comp h1 h2 h := h2 (h1 h).1
  mono _ h := h

theorem evalAsserts_noPanic (net : Net) (l : List (Expr F)) (ho : ∀ o ∈ opsList l, SafeOp (Rt.checks F) o) (s : St F) (hs : s.ctx.requests = []) :
    (evalAsserts (callAt net 0) l s).1 ≠ .panic := by
  have := evalAsserts_closed (call := callAt net 0) (call' := callAt net 0) (noPanic_grade (F := F) []).closed
    (fun name vs s => by
      intro h
      rw [callAt_noRequests _ _ _ _ _ h]
      exact callNative_closed (noPanic_grade (F := F) []).closed (fun t s h => ⟨h, by simp [M.modify, Res.out]⟩) name vs s h)
    (fun d h => Obeys.orElse d h) l (fun n _ v s h => ⟨h, by simp [writeVar, M.modify, Res.out]⟩) (fun o h => Or.inr (safe_harmless (ho o h))) s hs
  intro h
  rw [h] at this
  exact this.2 rfl

/-- C14, the part that holds: no panic if no operator that can panic occurs in the block or in the asserts of the known requests, and the
clocks are monotone. -/
theorem c14_no_panic_partial (net : Net) (block : List (Expr F)) (s : St F)
    (hclock : ∀ sent m, Monotone (clocksOf (net.exch sent m)))
    (hblock : ∀ o ∈ opsList block, SafeOp (Rt.checks F) o)
    (hasserts : ∀ name message asserts, amGet name s.ctx.requests = some (message, asserts) → ∀ o ∈ opsList asserts, SafeOp (Rt.checks F) o) :
    (runBlock net block s).1 ≠ .panic := by
  have := evalBlock_closed (call := callAt net 1) (call' := callAt net 1) (noPanic_grade (F := F) s.ctx.requests).closed
    (fun name vs s' => by
      intro h
      cases hr : s'.ctx.request name with
      | none =>
        rw [callAt_none net vs hr]
        exact callNative_closed (noPanic_grade (F := F) _).closed (fun t s h => ⟨h, by simp [M.modify, Res.out]⟩) name vs s' h
      | some p =>
        obtain ⟨message, asserts⟩ := p
        rw [callAt_some net vs hr]
        rcases callRequest_cases net 0 name message asserts s' with ⟨rq, rs, t, e, map, as, ctx', o, h1, h2, h3, h4⟩ | ⟨o, h1, h2⟩ | ⟨o, h1, h2⟩
        · rw [h4]; exact ⟨h, by simp [Res.out]⟩
        · rw [h1]; exact ⟨h, by simp [Res.out]⟩
        · exfalso
          rcases h2 with h2 | ⟨rq, rs, t, e, h2, h3⟩ | ⟨map, sent, out, h2⟩
          · exact send_not_panic _ _ _ (hclock _ _) h2
          · exact toMap_not_panic _ h3
          · refine evalAsserts_noPanic net asserts (hasserts name message asserts ?_) _ rfl h2
            rw [← h]; exact hr)
    block .null (fun n _ v s h => ⟨h, by simp [writeVar, M.modify, Res.out]⟩) (fun o h => Or.inr (safe_harmless (hblock o h))) s rfl
  intro h
  unfold runBlock at h
  rw [h] at this
  exact this.2 rfl

example : ∀ o ∈ opsList ([.binary ⟨.Eq, c!"=="⟩ (.ident c!"status") (.int 200)] : List (Expr F)), SafeOp true o := by
  intro o ho
  simp [opsList, ops] at ho
  subst ho
  simp [SafeOp]

/-! ## C16 -/

/-- The values that count as false. -/
def Falsy (v : Value F) : Prop := v = .bool false ∨ v = .null

theorem falsy_iff (v : Value F) : v.falsy = true ↔ Falsy v := by
  cases v with
  | bool b => cases b <;> simp [Value.falsy, Falsy]
  | _ => simp [Value.falsy, Falsy]

theorem falsy_false {v : Value F} (h : ¬Falsy v) : v.falsy = false := by
  cases hv : v.falsy with
  | true => exact absurd ((falsy_iff v).1 hv) h
  | false => rfl

/-- C16: `||` — the right operand is evaluated only when the left one is false or null; otherwise state and result are those of the left one. -/
theorem c16_or (net : Net) (t : Token) (ht : t.kind = .Lo) (l r : Expr F) (s s' : St F) (a : Value F) (h : eval net l s = (.ok a, s')) :
    (¬Falsy a → eval net (.binary t l r) s = (.ok a, s')) ∧ (Falsy a → eval net (.binary t l r) s = eval net r s') := by
  obtain ⟨k, lit⟩ := t
  have ht : k = .Lo := ht
  subst ht
  unfold eval at h ⊢
  constructor
  · intro ha
    simp only [evalExpr, binaryOp, if_true]
    rw [M.bind_ok h, falsy_false ha]
    rfl
  · intro ha
    simp only [evalExpr, binaryOp, if_true]
    rw [M.bind_ok h, (falsy_iff a).2 ha]
    rfl

/-- C16: `&&`. -/
theorem c16_and (net : Net) (t : Token) (ht : t.kind = .La) (l r : Expr F) (s s' : St F) (a : Value F) (h : eval net l s = (.ok a, s')) :
    (Falsy a → eval net (.binary t l r) s = (.ok a, s')) ∧ (¬Falsy a → eval net (.binary t l r) s = eval net r s') := by
  obtain ⟨k, lit⟩ := t
  have ht : k = .La := ht
  subst ht
  have hn : ¬(Kind.La = .Lo) := by decide
  unfold eval at h ⊢
  constructor
  · intro ha
    simp only [evalExpr, binaryOp, if_true, if_neg hn]
    rw [M.bind_ok h, (falsy_iff a).2 ha]
    rfl
  · intro ha
    simp only [evalExpr, binaryOp, if_true, if_neg hn]
    rw [M.bind_ok h, falsy_false ha]
    rfl

/-- C16: `if` runs exactly one of its blocks, in the state left by the condition. -/
theorem c16_if (net : Net) (c : Expr F) (t e : List (Expr F)) (s s' : St F) (a : Value F) (h : eval net c s = (.ok a, s')) :
    (Falsy a → eval net (.ifE c t e) s = runBlock net e s') ∧ (¬Falsy a → eval net (.ifE c t e) s = runBlock net t s') := by
  unfold eval at h ⊢
  unfold runBlock
  constructor
  · intro ha
    simp only [evalExpr]
    rw [M.bind_ok h, (falsy_iff a).2 ha]
    rfl
  · intro ha
    simp only [evalExpr]
    rw [M.bind_ok h, falsy_false ha]
    rfl

example : ¬Falsy (.int 0 : Value F) ∧ ¬Falsy (.str [] : Value F) ∧ ¬Falsy (.arr [] : Value F) := by simp [Falsy]
/-- `true || (let x = 1)` leaves `x` unbound. -/
example (net : Net) (s : St F) : eval net (.binary ⟨.Lo, c!"||"⟩ (.bool true) (.letE c!"x" (.int 1))) s = (.ok (.bool true), s) := rfl

/-! ## C17 -/

/-- C17: a successful `let` binds exactly the value of its expression: afterwards the variable reads that value, and nothing else differs
from the state after evaluating the expression. -/
theorem c17_let (net : Net) (x : Str) (e : Expr F) (s s' : St F) (v : Value F) (h : eval net (.letE x e) s = (.ok v, s')) :
    ∃ s1, eval net e s = (.ok v, s1) ∧ s'.ctx.get x = some v ∧ (∀ y, y ≠ x → s'.ctx.get y = s1.ctx.get y) ∧
      s'.ctx.requests = s1.ctx.requests ∧ s'.ctx.records = s1.ctx.records ∧ s'.sent = s1.sent ∧ s'.out = s1.out := by
  unfold eval at h ⊢
  simp only [evalExpr] at h
  match hs : evalExpr (callAt net 1) e s with
  | (.ok a, s1) =>
    rw [M.bind_ok hs, M.bind_ok (M.modify_run _ _)] at h
    injection h with h1 h2
    injection h1 with h1
    subst h1 h2
    exact ⟨s1, rfl, amGet_insert_self _ _ _, fun y hy => amGet_insert_ne _ _ (Ne.symm hy), rfl, rfl, rfl, rfl⟩
  | (.err _, s1) => rw [M.bind_err hs] at h; cases h
  | (.panic, s1) => rw [M.bind_panic hs] at h; cases h
  | (.hang, s1) => rw [M.bind_hang hs] at h; cases h

/-- C17: a `let` whose expression does not evaluate binds nothing. -/
theorem c17_let_fails (net : Net) (x : Str) (e : Expr F) (s s1 : St F) (r : Res (Value F)) (h : eval net e s = (r, s1)) (hr : ∀ v, r ≠ .ok v) :
    eval net (.letE x e) s = (r, s1) := by
  unfold eval at h ⊢
  simp only [evalExpr]
  cases r with
  | ok a => exact absurd rfl (hr a)
  | err e' => rw [M.bind_err h]
  | panic => rw [M.bind_panic h]
  | hang => rw [M.bind_hang h]

def frameGrade (x : Str) (_ : Nat) (_ : Out) (a b : St F) : Prop := b.ctx.get x = a.ctx.get x

theorem frame_grade (x : Str) : Grade (F := F) (frameGrade x) where
  refl _ := rfl
  comp h1 h2 := h2.trans h1
  mono _ h := h

theorem frame_call (net : Net) (x : Str) (name : Str) (vs : List (Value F)) : Obeys (frameGrade x) 1 (callAt net 1 name vs) := by
  intro s
  cases hr : s.ctx.request name with
  | none =>
    rw [callAt_none net vs hr]
    exact callNative_closed (P := fun {_} n m _ => Obeys (frameGrade x) n m) (frame_grade x).closed (fun t s => rfl) name vs s
  | some p =>
    obtain ⟨message, asserts⟩ := p
    rw [callAt_some net vs hr]
    rcases callRequest_cases net 0 name message asserts s with ⟨rq, rs, t, e, map, as, ctx', o, h1, h2, h3, h4⟩ | ⟨o, h1, h2⟩ | ⟨o, h1, h2⟩
    · rw [h4]; rfl
    · rw [h1]; rfl
    · rw [h1]; rfl

theorem frame_write {x n : Str} (h : n ≠ x) (v : Value F) : Obeys (frameGrade x) 0 (writeVar n v) :=
  fun s => amGet_insert_ne v s.ctx.inner h

/-- C17: evaluating a block — whether it succeeds, fails, panics or never ends — leaves every variable that is not the target of a `let`
written in the block unchanged. -/
theorem c17_frame (net : Net) (block : List (Expr F)) (s : St F) (x : Str) (hx : x ∉ letsList block) :
    (runBlock net block s).2.ctx.get x = s.ctx.get x :=
  evalBlock_closed (P := fun {_} n m _ => Obeys (frameGrade x) n m) (call := callAt net 1) (call' := callAt net 1) (frame_grade x).closed
    (frame_call net x) block .null (fun n hn v => frame_write (fun (h : n = x) => hx (h ▸ hn)) v) (fun _ _ => Or.inl (fun _ _ => rfl)) s

/-- C17: the same for a single expression. -/
theorem c17_frame_expr (net : Net) (e : Expr F) (s : St F) (x : Str) (hx : x ∉ lets e) : (eval net e s).2.ctx.get x = s.ctx.get x :=
  evalExpr_closed (P := fun {_} n m _ => Obeys (frameGrade x) n m) (call := callAt net 1) (call' := callAt net 1) (frame_grade x).closed
    (frame_call net x) e (fun n hn v => frame_write (fun (h : n = x) => hx (h ▸ hn)) v) (fun _ _ => Or.inl (fun _ _ => rfl)) s

example : lets (.letE c!"x" (.letE c!"y" (.int 1)) : Expr F) = [c!"x", c!"y"] := rfl

/-! ## C18 -/

theorem evalBlock_append (call : Call F) (es rest : List (Expr F)) : ∀ (acc : Value F) (s s1 : St F) (v : Value F),
    evalBlock call acc es s = (.ok v, s1) → evalBlock call acc (es ++ rest) s = evalBlock call v rest s1 := by
  induction es with
  | nil => intro acc s s1 v h; injection h with h1 h2; injection h1 with h1; subst h1 h2; rfl
  | cons e es ih =>
    intro acc s s1 v h
    simp only [evalBlock, List.cons_append] at h ⊢
    match hs : evalExpr call e s with
    | (.ok a, s2) => rw [M.bind_ok hs] at h ⊢; exact ih a s2 s1 v h
    | (.err _, s2) => rw [M.bind_err hs] at h; cases h
    | (.panic, s2) => rw [M.bind_panic hs] at h; cases h
    | (.hang, s2) => rw [M.bind_hang hs] at h; cases h

/-- C18: the empty block yields null and does nothing. -/
theorem c18_empty (net : Net) (s : St F) : runBlock net [] s = (.ok .null, s) := rfl

/-- C18: when the expressions before it succeed, the last expression is evaluated in the state they leave, and its outcome is the block's. -/
theorem c18_last (net : Net) (es : List (Expr F)) (e : Expr F) (s s1 : St F) (v : Value F) (h : runBlock net es s = (.ok v, s1)) :
    runBlock net (es ++ [e]) s = eval net e s1 := by
  unfold runBlock eval at *
  rw [evalBlock_append _ _ _ _ _ _ _ h]
  simp only [evalBlock]
  match hs : evalExpr (callAt net 1) e s1 with
  | (.ok a, s2) => rw [M.bind_ok hs]; rfl
  | (.err _, s2) => rw [M.bind_err hs]
  | (.panic, s2) => rw [M.bind_panic hs]
  | (.hang, s2) => rw [M.bind_hang hs]

/-- C18: at the first expression that fails the block ends with that failure, in the state the failing expression leaves; what follows has
no influence. -/
theorem c18_first_error (net : Net) (es rest : List (Expr F)) (e : Expr F) (s s1 s2 : St F) (v : Value F) (r : Res (Value F))
    (h : runBlock net es s = (.ok v, s1)) (he : eval net e s1 = (r, s2)) (hr : ∀ w, r ≠ .ok w) :
    runBlock net (es ++ e :: rest) s = (r, s2) := by
  unfold runBlock eval at *
  rw [evalBlock_append _ _ _ _ _ _ _ h]
  simp only [evalBlock]
  cases r with
  | ok a => exact absurd rfl (hr a)
  | err _ => rw [M.bind_err he]
  | panic => rw [M.bind_panic he]
  | hang => rw [M.bind_hang he]

/-- C18: these cover every run of a block: it succeeds throughout, or there is a first failing expression. -/
theorem c18_cases (net : Net) (es : List (Expr F)) (s : St F) :
    (∃ v s', runBlock net es s = (.ok v, s')) ∨
    (∃ before e rest v s1 r s2, es = before ++ e :: rest ∧ runBlock net before s = (.ok v, s1) ∧ eval net e s1 = (r, s2) ∧ (∀ w, r ≠ .ok w)) := by
  suffices h : ∀ (es before : List (Expr F)) (v : Value F) (s1 : St F), runBlock net before s = (.ok v, s1) →
      (∃ v s', runBlock net (before ++ es) s = (.ok v, s')) ∨
      (∃ b e rest v s1 r s2, before ++ es = b ++ e :: rest ∧ runBlock net b s = (.ok v, s1) ∧ eval net e s1 = (r, s2) ∧ (∀ w, r ≠ .ok w)) from
    h es [] .null s rfl
  intro es
  induction es with
  | nil => intro before v s1 h; exact Or.inl ⟨v, s1, by simpa using h⟩
  | cons e es ih =>
    intro before v s1 h
    match hs : eval net e s1 with
    | (.ok a, s2) =>
      have := ih (before ++ [e]) a s2 (by rw [c18_last net before e s s1 v h, hs])
      simpa using this
    | (.err m, s2) => exact Or.inr ⟨before, e, es, v, s1, .err m, s2, rfl, h, hs, by simp⟩
    | (.panic, s2) => exact Or.inr ⟨before, e, es, v, s1, .panic, s2, rfl, h, hs, by simp⟩
    | (.hang, s2) => exact Or.inr ⟨before, e, es, v, s1, .hang, s2, rfl, h, hs, by simp⟩

/-- C18 for operands: a strict binary operator evaluates its left operand, then its right operand in the state that leaves, then applies the
operator. A failing operand ends it at once. -/
theorem c18_operands (net : Net) (t : Token) (op : Value F → Value F → Res (Value F)) (ht : binaryOp t.kind = some op) (l r : Expr F) (s s1 s2 : St F)
    (x y : Res (Value F)) (hl : eval net l s = (x, s1)) (hr : eval net r s1 = (y, s2)) :
    (∀ a b, x = .ok a → y = .ok b → eval net (.binary t l r) s = (op a b, s2)) ∧
    ((∀ a, x ≠ .ok a) → eval net (.binary t l r) s = (x, s1)) ∧
    (∀ a, x = .ok a → (∀ b, y ≠ .ok b) → eval net (.binary t l r) s = (y, s2)) := by
  unfold eval at *
  have he : evalExpr (callAt net 1) (.binary t l r) = (do
      let a ← evalExpr (callAt net 1) l
      let b ← evalExpr (callAt net 1) r
      M.lift (op a b)) := by
    simp only [evalExpr]
    rw [ht]
  rw [he]
  refine ⟨?_, ?_, ?_⟩
  · intro a b hx hy
    subst hx hy
    rw [M.bind_ok hl, M.bind_ok hr]
    rfl
  · intro hx
    cases x with
    | ok a => exact absurd rfl (hx a)
    | err _ => rw [M.bind_err hl]
    | panic => rw [M.bind_panic hl]
    | hang => rw [M.bind_hang hl]
  · intro a hx hy
    subst hx
    rw [M.bind_ok hl]
    cases y with
    | ok b => exact absurd rfl (hy b)
    | err _ => rw [M.bind_err hr]
    | panic => rw [M.bind_panic hr]
    | hang => rw [M.bind_hang hr]

/-- C18 for lists: the items of an array literal and the arguments of a call are evaluated left to right, stopping at the first failure. -/
theorem c18_list (net : Net) (e : Expr F) (l : List (Expr F)) (s s1 s2 : St F) (x : Res (Value F)) (y : Res (List (Value F)))
    (he : eval net e s = (x, s1)) (hl : evalList (callAt net 1) l s1 = (y, s2)) :
    (∀ a vs, x = .ok a → y = .ok vs → evalList (callAt net 1) (e :: l) s = (.ok (a :: vs), s2)) ∧
    (∀ m, x = .err m → evalList (callAt net 1) (e :: l) s = (.err m, s1)) ∧
    (∀ a m, x = .ok a → y = .err m → evalList (callAt net 1) (e :: l) s = (.err m, s2)) := by
  unfold eval at he
  simp only [evalList]
  refine ⟨?_, ?_, ?_⟩
  · intro a vs hx hy; subst hx hy; rw [M.bind_ok he, M.bind_ok hl]; rfl
  · intro m hx; subst hx; rw [M.bind_err he]
  · intro a m hx hy; subst hx hy; rw [M.bind_ok he, M.bind_err hl]

/-- C18: a call evaluates its arguments first; if one fails, the function or request is not called. -/
theorem c18_call (net : Net) (f : Str) (args : List (Expr F)) (s s1 : St F) (x : Res (List (Value F))) (h : evalList (callAt net 1) args s = (x, s1)) :
    (∀ vs, x = .ok vs → eval net (.call f args) s = callAt net 1 f vs s1) ∧ (∀ m, x = .err m → eval net (.call f args) s = (.err m, s1)) := by
  unfold eval
  simp only [evalExpr]
  refine ⟨?_, ?_⟩
  · intro vs hx; subst hx; rw [M.bind_ok h]
  · intro m hx; subst hx; rw [M.bind_err h]

/-- Concrete case: `let a = 1; b; let c = 2` fails at `b`; `a` is set and `c` is not. -/
example (net : Net) : runBlock net [.letE c!"a" (.int 1), .ident c!"b", .letE c!"c" (.int 2)] (⟨Context.new, [], []⟩ : St F) =
    (.err c!"ident:b not found", ⟨⟨[(c!"a", .int 1)], [], []⟩, [], []⟩) := rfl

/-! ## C19 -/

def tableGrade (_ : Nat) (_ : Out) (a b : St F) : Prop := b.ctx.requests = a.ctx.requests

theorem table_grade : Grade (F := F) tableGrade where
  refl _ := rfl
  comp h1 h2 := h2.trans h1
  mono _ h := h

/-- C19: evaluating any block leaves the table of requests unchanged, whatever the outcome. -/
theorem c19_requests_fixed (net : Net) (block : List (Expr F)) (s : St F) : (runBlock net block s).2.ctx.requests = s.ctx.requests :=
  evalBlock_closed (P := fun {_} n m _ => Obeys tableGrade n m) (call := callAt net 1) (call' := callAt net 1) table_grade.closed
    (fun name vs s => by
      cases hr : s.ctx.request name with
      | none =>
        rw [callAt_none net vs hr]
        exact callNative_closed (P := fun {_} n m _ => Obeys tableGrade n m) table_grade.closed (fun t s => rfl) name vs s
      | some p =>
        obtain ⟨message, asserts⟩ := p
        rw [callAt_some net vs hr]
        rcases callRequest_cases net 0 name message asserts s with ⟨rq, rs, t, e, map, as, ctx', o, h1, h2, h3, h4⟩ | ⟨o, h1, h2⟩ | ⟨o, h1, h2⟩
        · rw [h4]; rfl
        · rw [h1]; rfl
        · rw [h1]; rfl)
    block .null (fun n _ v s => rfl) (fun _ _ => Or.inl (fun _ _ => rfl)) s

/-! ## C20 -/

/-- `rec` is the record of sending `m`: it is named after a known request, `m` is the message of that request with its placeholders
replaced in some state of the variables, and it holds what `m` parses to and what `Client::send` returned for it. -/
def RecordOf (net : Net) (table : List (Str × (Str × List (Expr F)))) (before : List Str) (m : Str) (rec : Record) : Prop :=
  ∃ template asserts, amGet rec.name table = some (template, asserts) ∧
    (∃ ctx : Context F, ctx.requests = table ∧ m = render ctx template) ∧
    send net before m = .ok (rec.request, rec.response, rec.time, rec.error)

/-- The records `recs` belong, one for one and in order, to the messages `msgs`, which were sent after `before`. -/
inductive RecordsOf (net : Net) (table : List (Str × (Str × List (Expr F)))) : List Str → List Str → List Record → Prop
  | nil (before : List Str) : RecordsOf net table before [] []
  | cons {before : List Str} {m : Str} {rec : Record} {ms : List Str} {rs : List Record} :
      RecordOf net table before m rec → RecordsOf net table (before ++ [m]) ms rs → RecordsOf net table before (m :: ms) (rec :: rs)

theorem RecordsOf.append {net : Net} {table : List (Str × (Str × List (Expr F)))} {b m1 m2 : List Str} {r1 r2 : List Record}
    (h1 : RecordsOf net table b m1 r1) (h2 : RecordsOf net table (b ++ m1) m2 r2) : RecordsOf net table b (m1 ++ m2) (r1 ++ r2) := by
  induction h1 with
  | nil b => simpa using h2
  | cons h _ ih => exact .cons h (ih (by simpa [List.append_assoc] using h2))

def recordGrade (net : Net) (table : List (Str × (Str × List (Expr F)))) (_ : Nat) (o : Out) (a b : St F) : Prop :=
  a.ctx.requests = table → b.ctx.requests = table ∧
    ∃ msgs recs lost, b.sent = a.sent ++ msgs ++ lost ∧ b.ctx.records = a.ctx.records ++ recs ∧ RecordsOf net table a.sent msgs recs ∧
      lost.length ≤ 1 ∧ (o = .fine → lost = [])

theorem record_grade (net : Net) (table : List (Str × (Str × List (Expr F)))) : Grade (recordGrade net table) where
  refl s h := ⟨h, [], [], [], by simp, by simp, .nil _, by simp, fun _ => rfl⟩
  comp := by
    intro m n o a b c h1 h2 h
    obtain ⟨hb, m1, r1, l1, hs1, hr1, hx1, _, hl1⟩ := h1 h
    obtain ⟨hc, m2, r2, l2, hs2, hr2, hx2, hl2, hl3⟩ := h2 hb
    have := hl1 rfl
    subst this
    rw [List.append_nil] at hs1
    refine ⟨hc, m1 ++ m2, r1 ++ r2, l2, ?_, ?_, ?_, hl2, hl3⟩
    · rw [hs2, hs1]; simp
    · rw [hr2, hr1]; simp
    · exact hx1.append (by rw [← hs1]; exact hx2)
  mono _ h := h

theorem record_call (net : Net) (table : List (Str × (Str × List (Expr F)))) (name : Str) (vs : List (Value F)) :
    Obeys (recordGrade net table) 1 (callAt net 1 name vs) := by
  intro s ht
  cases hr : s.ctx.request name with
  | none =>
    rw [callAt_none net vs hr]
    exact callNative_closed (P := fun {_} n m _ => Obeys (recordGrade net table) n m) (record_grade net table).closed
      (fun t s h => ⟨h, [], [], [], by simp [M.modify], by simp [M.modify], .nil _, by simp, fun _ => rfl⟩) name vs s ht
  | some p =>
    obtain ⟨message, asserts⟩ := p
    rw [callAt_some net vs hr]
    rcases callRequest_cases net 0 name message asserts s with ⟨rq, rs, t, e, map, as, ctx', o, h1, h2, h3, h4⟩ | ⟨o, h1, h2⟩ | ⟨o, h1, h2⟩
    · rw [h4]
      refine ⟨ht, [render s.ctx message], [_], [], by simp, rfl, ?_, by simp, fun _ => rfl⟩
      refine .cons ⟨message, asserts, by rw [← ht]; exact hr, ⟨s.ctx, ht, rfl⟩, h1⟩ (.nil _)
    · rw [h1]
      exact ⟨ht, [], [], [render s.ctx message], by simp, by simp, .nil _, by simp, fun h => by cases h⟩
    · rw [h1]
      exact ⟨ht, [], [], [render s.ctx message], by simp, by simp, .nil _, by simp, fun h => by cases h⟩

/-- C20: the record list only grows at its end, by exactly one record per message sent and in sending order, each record naming the request
it belongs to and holding its exchange; this holds when evaluation succeeds and when it ends with an error. Only a panic or an endless
loop while a response is processed can lose one record: that of the last message. -/
theorem c20_records (net : Net) (block : List (Expr F)) (s : St F) :
    ∃ msgs recs lost, (runBlock net block s).2.sent = s.sent ++ msgs ++ lost ∧ (runBlock net block s).2.ctx.records = s.ctx.records ++ recs ∧
      RecordsOf net s.ctx.requests s.sent msgs recs ∧ lost.length ≤ 1 ∧
      ((∃ v, (runBlock net block s).1 = .ok v) ∨ (∃ m, (runBlock net block s).1 = .err m) → lost = []) := by
  obtain ⟨_, m, r, l, h1, h2, h3, h4, h5⟩ := evalBlock_closed (P := fun {_} n m _ => Obeys (recordGrade net s.ctx.requests) n m)
    (call := callAt net 1) (call' := callAt net 1) (record_grade net s.ctx.requests).closed (record_call net s.ctx.requests) block .null
    (fun n _ v s h => ⟨h, [], [], [], by simp [writeVar, M.modify], by simp [writeVar, M.modify, Context.set], .nil _, by simp, fun _ => rfl⟩)
    (fun _ _ => Or.inl (fun _ s h => ⟨h, [], [], [], by simp [M.lift], by simp [M.lift], .nil _, by simp, fun _ => rfl⟩)) s rfl
  refine ⟨m, r, l, h1, h2, h3, h4, fun h => h5 ?_⟩
  unfold runBlock at h
  rcases h with ⟨v, h⟩ | ⟨e, h⟩ <;> rw [h] <;> rfl

/-- C20: so there are as many new records as messages. -/
theorem c20_count {net : Net} {table : List (Str × (Str × List (Expr F)))} {before ms : List Str} {rs : List Record}
    (h : RecordsOf net table before ms rs) : rs.length = ms.length := by
  induction h with
  | nil => rfl
  | cons _ _ ih => simp [ih]

end Am
