import Verif.Spec.Eval
import Verif.Proofs.Parser
/-! # Induction over evaluation -/
set_option linter.unusedSimpArgs false
set_option linter.unusedSectionVars false
namespace Am
open Spec
variable {F : Type} [Rt F]

theorem M.bind_ok {α β : Type} {m : M F α} {f : α → M F β} {s s' : St F} {a : α} (h : m s = (.ok a, s')) : (m >>= f) s = f a s' := by
  show M.bind m f s = _
  simp only [M.bind, h]

theorem M.bind_err {α β : Type} {m : M F α} {f : α → M F β} {s s' : St F} {e : Str} (h : m s = (.err e, s')) : (m >>= f) s = (.err e, s') := by
  show M.bind m f s = _
  simp only [M.bind, h]

theorem M.bind_panic {α β : Type} {m : M F α} {f : α → M F β} {s s' : St F} (h : m s = (.panic, s')) : (m >>= f) s = (.panic, s') := by
  show M.bind m f s = _
  simp only [M.bind, h]

theorem M.bind_hang {α β : Type} {m : M F α} {f : α → M F β} {s s' : St F} (h : m s = (.hang, s')) : (m >>= f) s = (.hang, s') := by
  show M.bind m f s = _
  simp only [M.bind, h]

theorem M.pure_run {α : Type} (a : α) (s : St F) : (pure a : M F α) s = (.ok a, s) := rfl
theorem M.mpure_run {α : Type} (a : α) (s : St F) : (M.pure a : M F α) s = (.ok a, s) := rfl
theorem M.lift_run {α : Type} (r : Res α) (s : St F) : (M.lift r : M F α) s = (r, s) := rfl
theorem M.modify_run (f : St F → St F) (s : St F) : (M.modify f : M F Unit) s = (.ok (), f s) := rfl

/-- How a call ended. -/
inductive Out where
  | fine | panic | hang
  deriving DecidableEq

def Res.out {α : Type} : Res α → Out
  | .ok _ => .fine
  | .err _ => .fine
  | .panic => .panic
  | .hang => .hang

/-- evaluator.rs:101-106: reading a variable. -/
def readVar (n : Str) : M F (Value F) := fun s =>
  match s.ctx.get n with
  | some v => (.ok v, s)
  | none => (.err (c!"ident:" ++ n ++ c!" not found"), s)

/-- `let`: writing a variable. -/
def writeVar (n : Str) (v : Value F) : M F Unit := M.modify fun s => { s with ctx := s.ctx.set n v }

/-- A relation between computations, graded by a number, that relates the effect-free ones to themselves and is closed under sequencing. A
class of computations is the special case that ignores the second one. -/
structure Closed (P : {α : Type} → Nat → M F α → M F α → Prop) : Prop where
  pure : ∀ {α : Type} (a : α), P 0 (M.pure a) (M.pure a)
  bind : ∀ {α β : Type} {m n : Nat} {x y : M F α} {f g : α → M F β}, P m x y → (∀ a, P n (f a) (g a)) → P (m + n) (x >>= f) (y >>= g)
  mono : ∀ {α : Type} {m n : Nat} {x y : M F α}, m ≤ n → P m x y → P n x y
  ident : ∀ n, P 0 (readVar n) (readVar n)
  lift : ∀ {α : Type} {r : Res α}, r ≠ .hang → r ≠ .panic → P 0 (M.lift r) (M.lift r)

/-! ## Which operations panic -/

theorem checked_not_hang (x : Int) : checked F x ≠ .hang := by
  unfold checked
  split
  · simp
  · split <;> simp

theorem Res.bind_ne_hang {α β : Type} {x : Res α} {f : α → Res β} (hx : x ≠ .hang) (hf : ∀ a, f a ≠ .hang) : (x >>= f) ≠ .hang := by
  cases x with
  | ok a => exact hf a
  | err e => intro h; cases h
  | panic => intro h; cases h
  | hang => exact absurd rfl hx

theorem Res.bind_ne_panic {α β : Type} {x : Res α} {f : α → Res β} (hx : x ≠ .panic) (hf : ∀ a, f a ≠ .panic) : (x >>= f) ≠ .panic := by
  cases x with
  | ok a => exact hf a
  | err e => intro h; cases h
  | hang => intro h; cases h
  | panic => exact absurd rfl hx

theorem indexValue_fine (v i : Value F) : indexValue v i ≠ .hang ∧ indexValue v i ≠ .panic := by
  unfold indexValue
  split <;> simp

theorem fieldValue_fine (v : Value F) (n : Str) : fieldValue v n ≠ .hang ∧ fieldValue v n ≠ .panic := by
  unfold fieldValue
  split <;> simp

theorem unaryValue_not_hang (t : Token) (v : Value F) : unaryValue t v ≠ .hang := by
  unfold unaryValue
  split <;> first | exact Res.bind_ne_hang (checked_not_hang _) (fun _ h => by cases h) | simp

theorem i64Div_not_hang (a b : Int64) : i64Div a b ≠ .hang := by
  unfold i64Div
  split
  · simp
  · split <;> simp

theorem i64Rem_not_hang (a b : Int64) : i64Rem a b ≠ .hang := by
  unfold i64Rem
  split
  · simp
  · split <;> simp

theorem shiftAmount_not_hang (a : Int64) : shiftAmount F a ≠ .hang := by
  unfold shiftAmount
  split
  · simp
  · split <;> simp

theorem mismatch_fine (op : Str) (a b : Value F) : mismatch op a b ≠ .hang ∧ mismatch op a b ≠ .panic := by
  unfold mismatch; simp

theorem binaryOp_not_hang {k : Kind} {op : Value F → Value F → Res (Value F)} (h : binaryOp k = some op) (a b : Value F) : op a b ≠ .hang := by
  unfold binaryOp at h
  split at h <;> first | (cases h; done) | skip
  all_goals (injection h with h; subst h)
  · unfold Value.add; split <;> first | exact Res.bind_ne_hang (checked_not_hang _) (fun _ h => by cases h) | exact (mismatch_fine _ _ _).1 | simp
  · unfold Value.sub; split <;> first | exact Res.bind_ne_hang (checked_not_hang _) (fun _ h => by cases h) | exact (mismatch_fine _ _ _).1 | simp
  · unfold Value.mul; split <;> first | exact Res.bind_ne_hang (checked_not_hang _) (fun _ h => by cases h) | exact (mismatch_fine _ _ _).1 | simp
  · unfold Value.div; split <;> first | exact Res.bind_ne_hang (i64Div_not_hang _ _) (fun _ h => by cases h) | exact (mismatch_fine _ _ _).1 | simp
  · unfold Value.rem; split <;> first | exact Res.bind_ne_hang (i64Rem_not_hang _ _) (fun _ h => by cases h) | exact (mismatch_fine _ _ _).1 | simp
  · unfold Value.bitxor; split <;> first | exact (mismatch_fine _ _ _).1 | simp
  · unfold Value.bitor; split <;> first | exact (mismatch_fine _ _ _).1 | simp
  · unfold Value.bitand; split <;> first | exact (mismatch_fine _ _ _).1 | simp
  · unfold Value.shl; split <;> first | exact Res.bind_ne_hang (shiftAmount_not_hang _) (fun _ h => by cases h) | exact (mismatch_fine _ _ _).1 | simp
  · unfold Value.shr; split <;> first | exact Res.bind_ne_hang (shiftAmount_not_hang _) (fun _ h => by cases h) | exact (mismatch_fine _ _ _).1 | simp
  all_goals simp

/-- An operator that never panics, whatever its operands (first component: `true` for unary). -/
def Harmless (F : Type) [Rt F] : Bool × Kind → Prop
  | (true, k) => ∀ (t : Token) (v : Value F), t.kind = k → unaryValue t v ≠ .panic
  | (false, k) => ∀ (op : Value F → Value F → Res (Value F)), binaryOp k = some op → ∀ a b, op a b ≠ .panic

/-! ## The induction -/

variable {P : {α : Type} → Nat → M F α → M F α → Prop}

/-- `P` contains the computations that panic in place. -/
def AllowsPanic (P : {α : Type} → Nat → M F α → M F α → Prop) : Prop := ∀ α : Type, P 0 (M.lift (.panic : Res α)) (M.lift .panic)

theorem Closed.lift' (g : Closed P) {r : Res (Value F)} (hh : r ≠ .hang) (hp : r = .panic → AllowsPanic P) : P 0 (M.lift r) (M.lift r) := by
  cases r with
  | ok a => exact g.lift (by simp) (by simp)
  | err e => exact g.lift (by simp) (by simp)
  | panic => exact hp rfl _
  | hang => exact absurd rfl hh

mutual
theorem evalExpr_closed (g : Closed P) {call call' : Call F} (hcall : ∀ f vs, P 1 (call f vs) (call' f vs)) :
    ∀ (e : Expr F), (∀ n ∈ lets e, ∀ v, P 0 (writeVar n v) (writeVar n v)) →
      (∀ o ∈ ops e, AllowsPanic P ∨ Harmless F o) → P (calls e) (evalExpr call e) (evalExpr call' e)
  | .int i, _, _ => g.pure _
  | .float i, _, _ => g.pure _
  | .bool i, _, _ => g.pure _
  | .str i, _, _ => g.pure _
  | .arr items, hl, ho => by
    simp only [evalExpr, calls]
    exact (g.bind (evalList_closed g hcall items hl ho) (fun a => g.pure _))
  | .map pairs, hl, ho => by
    simp only [evalExpr, calls]
    exact (g.bind (evalPairs_closed g hcall pairs [] hl ho) (fun a => g.pure _))
  | .index l i, hl, ho => by
    simp only [evalExpr, calls]
    refine g.bind (evalExpr_closed g hcall l (fun n h => hl n (List.mem_append_left _ h)) (fun n h => ho n (List.mem_append_left _ h))) ?_
    intro a
    refine g.bind (n := 0) (evalExpr_closed g hcall i (fun n h => hl n (List.mem_append_right _ h)) (fun n h => ho n (List.mem_append_right _ h))) ?_
    intro b
    exact g.lift (indexValue_fine _ _).1 (indexValue_fine _ _).2
  | .field l n, hl, ho => by
    simp only [evalExpr, calls]
    refine g.bind (n := 0) (evalExpr_closed g hcall l hl ho) ?_
    intro b
    exact g.lift (fieldValue_fine _ _).1 (fieldValue_fine _ _).2
  | .ident n, _, _ => by
    simp only [evalExpr, calls]
    exact g.ident n
  | .letE n e, hl, ho => by
    simp only [evalExpr, calls]
    refine g.bind (n := 0) (evalExpr_closed g hcall e (fun m h => hl m (List.mem_cons_of_mem _ h)) ho) ?_
    intro v
    exact g.bind (m := 0) (n := 0) (hl n (List.mem_cons_self ..) v) (fun _ => g.pure _)
  | .unary t r, hl, ho => by
    simp only [evalExpr, calls]
    refine g.bind (n := 0) (evalExpr_closed g hcall r hl (fun n h => ho n (List.mem_cons_of_mem _ h))) ?_
    intro b
    refine g.lift' (unaryValue_not_hang _ _) (fun h => ?_)
    rcases ho _ (List.mem_cons_self ..) with h1 | h1
    · exact h1
    · exact absurd h (h1 t b rfl)
  | .binary t l r, hl, ho => by
    have ihl := evalExpr_closed g hcall l (fun n h => hl n (List.mem_append_left _ h))
      (fun n h => ho n (List.mem_cons_of_mem _ (List.mem_append_left _ h)))
    have ihr := evalExpr_closed g hcall r (fun n h => hl n (List.mem_append_right _ h))
      (fun n h => ho n (List.mem_cons_of_mem _ (List.mem_append_right _ h)))
    simp only [evalExpr, calls]
    split
    · rename_i op hop
      refine g.bind ihl ?_
      intro a
      refine g.bind (n := 0) ihr ?_
      intro b
      refine g.lift' (binaryOp_not_hang hop _ _) (fun h => ?_)
      rcases ho _ (List.mem_cons_self ..) with h1 | h1
      · exact h1
      · exact absurd h (h1 op hop a b)
    · split
      · refine g.bind ihl ?_
        intro a
        split
        · exact ihr
        · exact g.mono (Nat.zero_le _) (g.pure _)
      · split
        · refine g.bind ihl ?_
          intro a
          split
          · exact g.mono (Nat.zero_le _) (g.pure _)
          · exact ihr
        · exact g.mono (Nat.zero_le _) (g.lift (by simp) (by simp))
  | .paren e, hl, ho => by
    simp only [evalExpr, calls]
    exact evalExpr_closed g hcall e hl ho
  | .ifE c t e, hl, ho => by
    simp only [evalExpr, calls]
    refine g.bind (evalExpr_closed g hcall c (fun n h => hl n (List.mem_append_left _ (List.mem_append_left _ h)))
      (fun n h => ho n (List.mem_append_left _ (List.mem_append_left _ h)))) ?_
    intro a
    split
    · exact g.mono (by omega) (evalBlock_closed g hcall e .null (fun n h => hl n (List.mem_append_right _ h))
        (fun n h => ho n (List.mem_append_right _ h)))
    · exact g.mono (by omega) (evalBlock_closed g hcall t .null (fun n h => hl n (List.mem_append_left _ (List.mem_append_right _ h)))
        (fun n h => ho n (List.mem_append_left _ (List.mem_append_right _ h))))
  | .call f args, hl, ho => by
    simp only [evalExpr, calls]
    exact g.bind (evalList_closed g hcall args hl ho) (fun vs => hcall f vs)
theorem evalList_closed (g : Closed P) {call call' : Call F} (hcall : ∀ f vs, P 1 (call f vs) (call' f vs)) :
    ∀ (l : List (Expr F)), (∀ n ∈ letsList l, ∀ v, P 0 (writeVar n v) (writeVar n v)) →
      (∀ o ∈ opsList l, AllowsPanic P ∨ Harmless F o) → P (callsList l) (evalList call l) (evalList call' l)
  | [], _, _ => g.pure _
  | e :: l, hl, ho => by
    simp only [evalList, callsList]
    refine g.bind (evalExpr_closed g hcall e (fun n h => hl n (List.mem_append_left _ h)) (fun n h => ho n (List.mem_append_left _ h))) ?_
    intro v
    exact g.bind (n := 0) (evalList_closed g hcall l (fun n h => hl n (List.mem_append_right _ h)) (fun n h => ho n (List.mem_append_right _ h)))
      (fun vs => g.pure _)
theorem evalPairs_closed (g : Closed P) {call call' : Call F} (hcall : ∀ f vs, P 1 (call f vs) (call' f vs)) :
    ∀ (l : List (Expr F × Expr F)) (acc : List (Str × Value F)),
      (∀ n ∈ letsPairs l, ∀ v, P 0 (writeVar n v) (writeVar n v)) →
      (∀ o ∈ opsPairs l, AllowsPanic P ∨ Harmless F o) → P (callsPairs l) (evalPairs call acc l) (evalPairs call' acc l)
  | [], _, _, _ => g.pure _
  | (k, v) :: l, acc, hl, ho => by
    simp only [evalPairs, callsPairs]
    refine g.bind (evalExpr_closed g hcall k (fun n h => hl n (List.mem_append_left _ (List.mem_append_left _ h)))
      (fun n h => ho n (List.mem_append_left _ (List.mem_append_left _ h)))) ?_
    intro a
    refine g.bind (evalExpr_closed g hcall v (fun n h => hl n (List.mem_append_left _ (List.mem_append_right _ h)))
      (fun n h => ho n (List.mem_append_left _ (List.mem_append_right _ h)))) ?_
    intro b
    exact evalPairs_closed g hcall l _ (fun n h => hl n (List.mem_append_right _ h)) (fun n h => ho n (List.mem_append_right _ h))
theorem evalBlock_closed (g : Closed P) {call call' : Call F} (hcall : ∀ f vs, P 1 (call f vs) (call' f vs)) :
    ∀ (l : List (Expr F)) (acc : Value F), (∀ n ∈ letsList l, ∀ v, P 0 (writeVar n v) (writeVar n v)) →
      (∀ o ∈ opsList l, AllowsPanic P ∨ Harmless F o) → P (callsList l) (evalBlock call acc l) (evalBlock call' acc l)
  | [], _, _, _ => g.pure _
  | e :: l, acc, hl, ho => by
    simp only [evalBlock, callsList]
    refine g.bind (evalExpr_closed g hcall e (fun n h => hl n (List.mem_append_left _ h)) (fun n h => ho n (List.mem_append_left _ h))) ?_
    intro v
    exact evalBlock_closed g hcall l v (fun n h => hl n (List.mem_append_right _ h)) (fun n h => ho n (List.mem_append_right _ h))
end

/-- The classes used below also contain the conversion of errors to null. -/
theorem evalAsserts_closed (g : Closed P) {call call' : Call F} (hcall : ∀ f vs, P 1 (call f vs) (call' f vs))
    (hor : ∀ {n} {x y : M F (Value F)} (d : Value F), P n x y → P n (x.orElse d) (y.orElse d)) :
    ∀ (l : List (Expr F)), (∀ n ∈ letsList l, ∀ v, P 0 (writeVar n v) (writeVar n v)) →
      (∀ o ∈ opsList l, AllowsPanic P ∨ Harmless F o) → P (callsList l) (evalAsserts call l) (evalAsserts call' l)
  | [], _, _ => g.pure _
  | .binary t l r :: rest, hl, ho => by
    have hl0 : ∀ n ∈ lets l ++ lets r, ∀ v, P 0 (writeVar n v) (writeVar n v) := fun n h => hl n (List.mem_append_left _ h)
    have ho0 : ∀ n ∈ ops l ++ ops r, AllowsPanic P ∨ Harmless F n :=
      fun n h => ho n (List.mem_append_left _ (List.mem_cons_of_mem _ h))
    have ihl := evalExpr_closed g hcall l (fun n h => hl0 n (List.mem_append_left _ h)) (fun n h => ho0 n (List.mem_append_left _ h))
    have ihr := evalExpr_closed g hcall r (fun n h => hl0 n (List.mem_append_right _ h)) (fun n h => ho0 n (List.mem_append_right _ h))
    have ih := evalAsserts_closed g hcall hor rest (fun n h => hl n (List.mem_append_right _ h)) (fun n h => ho n (List.mem_append_right _ h))
    simp only [evalAsserts, callsList, calls, Nat.add_assoc]
    refine g.bind (hor _ ihl) ?_
    intro a
    refine g.bind (hor _ ihr) ?_
    intro b
    refine g.bind (n := 0) ih ?_
    intro as
    split
    · exact g.pure _
    · exact g.pure _
  | .int _ :: rest, hl, ho => by
    simp only [evalAsserts, callsList]
    exact g.mono (by omega) (evalAsserts_closed g hcall hor rest (fun n h => hl n (List.mem_append_right _ h)) (fun n h => ho n (List.mem_append_right _ h)))
  | .float _ :: rest, hl, ho => by
    simp only [evalAsserts, callsList]
    exact g.mono (by omega) (evalAsserts_closed g hcall hor rest (fun n h => hl n (List.mem_append_right _ h)) (fun n h => ho n (List.mem_append_right _ h)))
  | .bool _ :: rest, hl, ho => by
    simp only [evalAsserts, callsList]
    exact g.mono (by omega) (evalAsserts_closed g hcall hor rest (fun n h => hl n (List.mem_append_right _ h)) (fun n h => ho n (List.mem_append_right _ h)))
  | .str _ :: rest, hl, ho => by
    simp only [evalAsserts, callsList]
    exact g.mono (by omega) (evalAsserts_closed g hcall hor rest (fun n h => hl n (List.mem_append_right _ h)) (fun n h => ho n (List.mem_append_right _ h)))
  | .ident _ :: rest, hl, ho => by
    simp only [evalAsserts, callsList]
    exact g.mono (by omega) (evalAsserts_closed g hcall hor rest (fun n h => hl n (List.mem_append_right _ h)) (fun n h => ho n (List.mem_append_right _ h)))
  | .arr _ :: rest, hl, ho => by
    simp only [evalAsserts, callsList]
    exact g.mono (by omega) (evalAsserts_closed g hcall hor rest (fun n h => hl n (List.mem_append_right _ h)) (fun n h => ho n (List.mem_append_right _ h)))
  | .map _ :: rest, hl, ho => by
    simp only [evalAsserts, callsList]
    exact g.mono (by omega) (evalAsserts_closed g hcall hor rest (fun n h => hl n (List.mem_append_right _ h)) (fun n h => ho n (List.mem_append_right _ h)))
  | .index _ _ :: rest, hl, ho => by
    simp only [evalAsserts, callsList]
    exact g.mono (by omega) (evalAsserts_closed g hcall hor rest (fun n h => hl n (List.mem_append_right _ h)) (fun n h => ho n (List.mem_append_right _ h)))
  | .field _ _ :: rest, hl, ho => by
    simp only [evalAsserts, callsList]
    exact g.mono (by omega) (evalAsserts_closed g hcall hor rest (fun n h => hl n (List.mem_append_right _ h)) (fun n h => ho n (List.mem_append_right _ h)))
  | .letE _ _ :: rest, hl, ho => by
    simp only [evalAsserts, callsList]
    exact g.mono (by omega) (evalAsserts_closed g hcall hor rest (fun n h => hl n (List.mem_append_right _ h)) (fun n h => ho n (List.mem_append_right _ h)))
  | .unary _ _ :: rest, hl, ho => by
    simp only [evalAsserts, callsList]
    exact g.mono (by omega) (evalAsserts_closed g hcall hor rest (fun n h => hl n (List.mem_append_right _ h)) (fun n h => ho n (List.mem_append_right _ h)))
  | .paren _ :: rest, hl, ho => by
    simp only [evalAsserts, callsList]
    exact g.mono (by omega) (evalAsserts_closed g hcall hor rest (fun n h => hl n (List.mem_append_right _ h)) (fun n h => ho n (List.mem_append_right _ h)))
  | .ifE _ _ _ :: rest, hl, ho => by
    simp only [evalAsserts, callsList]
    exact g.mono (by omega) (evalAsserts_closed g hcall hor rest (fun n h => hl n (List.mem_append_right _ h)) (fun n h => ho n (List.mem_append_right _ h)))
  | .call _ _ :: rest, hl, ho => by
    simp only [evalAsserts, callsList]
    exact g.mono (by omega) (evalAsserts_closed g hcall hor rest (fun n h => hl n (List.mem_append_right _ h)) (fun n h => ho n (List.mem_append_right _ h)))

/-! ## Relations between the states before and after -/

/-- A relation between the states before and after, graded by the number of calls written. -/
structure Grade (R : Nat → Out → St F → St F → Prop) : Prop where
  refl : ∀ s, R 0 .fine s s
  comp : ∀ {m n o a b c}, R m .fine a b → R n o b c → R (m + n) o a c
  mono : ∀ {m n o a b}, m ≤ n → R m o a b → R n o a b

/-- `m` relates the states before and after by `R n`. -/
def Obeys (R : Nat → Out → St F → St F → Prop) {α : Type} (n : Nat) (m : M F α) : Prop := ∀ s, R n (m s).1.out s (m s).2

variable {R : Nat → Out → St F → St F → Prop}

theorem Grade.closed (g : Grade R) : Closed (F := F) (fun {_} n m _ => Obeys R n m) where
  pure a s := g.refl s
  bind {α β m k x y f g'} hx hf s := by
    have h1 := hx s
    match hs : x s with
    | (.ok a, s') =>
      rw [hs] at h1
      rw [M.bind_ok hs]
      exact g.comp h1 (hf a s')
    | (.err e, s') =>
      rw [hs] at h1
      rw [M.bind_err hs]
      exact g.mono (Nat.le_add_right _ _) h1
    | (.panic, s') =>
      rw [hs] at h1
      rw [M.bind_panic hs]
      exact g.mono (Nat.le_add_right _ _) h1
    | (.hang, s') =>
      rw [hs] at h1
      rw [M.bind_hang hs]
      exact g.mono (Nat.le_add_right _ _) h1
  mono hmn h s := g.mono hmn (h s)
  ident n s := by
    unfold readVar
    cases s.ctx.get n with
    | some v => exact g.refl s
    | none => exact g.refl s
  lift {α r} hh hp s := by
    cases r with
    | ok a => exact g.refl s
    | err e => exact g.refl s
    | panic => exact absurd rfl hp
    | hang => exact absurd rfl hh

theorem Obeys.orElse {n : Nat} {x : M F (Value F)} (d : Value F) (h : Obeys R n x) : Obeys R n (x.orElse d) := by
  intro s
  have h1 := h s
  unfold M.orElse
  match hs : x s with
  | (.ok a, s') => rw [hs] at h1; exact h1
  | (.err e, s') => rw [hs] at h1; exact h1
  | (.panic, s') => rw [hs] at h1; exact h1
  | (.hang, s') => rw [hs] at h1; exact h1

end Am
