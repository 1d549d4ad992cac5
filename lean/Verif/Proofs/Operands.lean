import Verif.Spec.Operands
import Verif.Proofs.Rewriting
import Verif.Props.Joining
import Verif.Props.Equality
import Verif.Props.Values
/-! # Exchanged operands do the same -/
set_option linter.unusedSimpArgs false
set_option linter.unusedSectionVars false
namespace Am
open Spec
variable {F : Type} [Rt F]

/-! ## Plain expressions -/

/-- A value or an error, and the state stays. -/
def Rests {α : Type} (_ : Nat) (m _ : M F α) : Prop := ∀ s : St F, (m s).2 = s ∧ (m s).1 ≠ .hang ∧ (m s).1 ≠ .panic

theorem rests_closed : Closed (F := F) Rests where
  pure a := fun _ => ⟨rfl, fun h => (by cases h), fun h => (by cases h)⟩
  bind := by
    intro α β m n x y f g h h' s
    obtain ⟨h1, h2, h3⟩ := h s
    show (M.bind x f s).2 = s ∧ (M.bind x f s).1 ≠ .hang ∧ (M.bind x f s).1 ≠ .panic
    unfold M.bind
    rcases hx : x s with ⟨r, s1⟩
    rw [hx] at h1 h2 h3
    dsimp only at h1 h2 h3
    subst h1
    cases r with
    | ok a => exact h' a s1
    | err e => exact ⟨rfl, (by simp), (by simp)⟩
    | panic => exact absurd rfl h3
    | hang => exact absurd rfl h2
  mono := fun _ h => h
  ident n := by
    intro s
    unfold readVar
    split <;> exact ⟨rfl, fun h => (by cases h), fun h => (by cases h)⟩
  lift h1 h2 := fun _ => ⟨rfl, h1, h2⟩

theorem plain_rests (call : Call F) {e : Expr F} (h : PlainExpr e) (s : St F) : (∃ v, evalExpr call e s = (.ok v, s)) ∨ ∃ m, evalExpr call e s = (.err m, s) := by
  obtain ⟨h1, h2, h3⟩ := h
  have e1 : evalExpr call e = evalExpr (fun _ _ => M.lift (.ok .null)) e := evalExpr_names _ _ e fun f hf => by rw [h1] at hf; cases hf
  have k := evalExpr_closed rests_closed (call := fun _ _ => M.lift (.ok .null)) (call' := fun _ _ => M.lift (.ok .null)) (fun _ _ => fun _ => ⟨rfl, fun h => (by cases h), fun h => (by cases h)⟩) e
    (fun n hn => by rw [h2] at hn; cases hn) (fun o ho => .inr (safe_harmless (h3 o ho))) s
  rw [e1]
  rcases hx : evalExpr (fun _ _ => M.lift (.ok .null)) e s with ⟨r, t⟩
  rw [hx] at k
  obtain ⟨k1, k2, k3⟩ := k
  dsimp only at k1 k2 k3
  subst k1
  cases r with
  | ok v => exact .inl ⟨v, rfl⟩
  | err m => exact .inr ⟨m, rfl⟩
  | panic => exact absurd rfl k3
  | hang => exact absurd rfl k2

theorem literal_rests (call : Call F) {e : Expr F} {v : Value F} (h : WrittenValue e v) (s : St F) : evalExpr call e s = (.ok v, s) := by
  cases h <;> (simp only [evalExpr]; rfl)

/-! ## Two operands -/

/-- What an operator does after its operands. -/
def operate (call : Call F) (l r : Expr F) (op : Value F → Value F → Res (Value F)) : M F (Value F) := do
  let a ← evalExpr call l
  let b ← evalExpr call r
  M.lift (op a b)

theorem operate_literal (call : Call F) {l : Expr F} {a : Value F} (h : WrittenValue l a) (r : Expr F) {op op' : Value F → Value F → Res (Value F)}
    (hop : ∀ b, SameEnd (op a b) (op' b a)) : Does (operate call l r op) (operate call r l op') := by
  intro s
  have e1 : operate call l r op s = M.bind (evalExpr call r) (fun b => M.lift (op a b)) s := by
    show M.bind _ _ s = _
    conv => lhs; unfold M.bind
    rw [literal_rests call h s]
    rfl
  have e2 : operate call r l op' s = M.bind (evalExpr call r) (fun b => M.lift (op' b a)) s := by
    show M.bind _ _ s = _
    unfold M.bind
    rcases evalExpr call r s with ⟨x, t⟩
    cases x with
    | ok b =>
      show M.bind (evalExpr call l) (fun a => M.lift (op' b a)) t = _
      unfold M.bind
      rw [literal_rests call h t]
    | err m => rfl
    | panic => rfl
    | hang => rfl
  rw [e1, e2]
  exact Does.bind (x := evalExpr call r) (f := fun b => M.lift (op a b)) (g := fun b => M.lift (op' b a)) (Does.refl _) (fun b => fun t => ⟨hop b, rfl⟩) s

theorem operate_plain (call : Call F) {l r : Expr F} (hl : PlainExpr l) (hr : PlainExpr r) {op op' : Value F → Value F → Res (Value F)}
    (hop : ∀ a b, SameEnd (op a b) (op' b a)) : Does (operate call l r op) (operate call r l op') := by
  intro s
  unfold operate
  show SameEnd (M.bind _ _ s).1 (M.bind _ _ s).1 ∧ (M.bind _ _ s).2 = (M.bind _ _ s).2
  unfold M.bind
  rcases plain_rests call hl s with ⟨a, ha⟩ | ⟨a, ha⟩ <;> rcases plain_rests call hr s with ⟨b, hb⟩ | ⟨b, hb⟩ <;> rw [ha, hb] <;> dsimp only
  · show SameEnd (M.bind _ _ s).1 (M.bind _ _ s).1 ∧ (M.bind _ _ s).2 = (M.bind _ _ s).2
    unfold M.bind
    rw [ha, hb]
    exact ⟨hop a b, rfl⟩
  · show SameEnd (M.bind _ _ s).1 _ ∧ (M.bind _ _ s).2 = _
    unfold M.bind
    rw [hb]
    exact ⟨trivial, rfl⟩
  · show SameEnd _ (M.bind _ _ s).1 ∧ _ = (M.bind _ _ s).2
    unfold M.bind
    rw [ha]
    exact ⟨trivial, rfl⟩
  · exact ⟨trivial, rfl⟩

theorem operate_apart (call : Call F) {l r : Expr F} (h : OrderFree l r) {op op' : Value F → Value F → Res (Value F)}
    (hop : ∀ a b, SameEnd (op a b) (op' b a)) : Does (operate call l r op) (operate call r l op') := by
  rcases h with ⟨v, h⟩ | ⟨v, h⟩ | ⟨h1, h2⟩
  · exact operate_literal call h r fun b => hop v b
  · exact (operate_literal call h l (op := op') (op' := op) fun b => sameEnd_symm (hop b v)).symm
  · exact operate_plain call h1 h2 hop

theorem eval_operate (call : Call F) {t : Token} {op : Value F → Value F → Res (Value F)} (h : binaryOp t.kind = some op) (l r : Expr F) :
    evalExpr call (.binary t l r) = operate call l r op := by
  simp only [evalExpr, h]
  rfl

/-! ## The operators -/

theorem mul_swap (hf : FloatsCommute F) (a b : Value F) : SameEnd (a.mul b) (b.mul a) := by
  cases a <;> cases b <;> simp only [Value.mul, Value.mul.eq_def] <;> first
    | trivial
    | (rw [Int.mul_comm]; exact sameEnd_refl _)
    | (show Value.float _ = Value.float _; rw [hf.2])

theorem bitand_swap (a b : Value F) : SameEnd (a.bitand b) (b.bitand a) := by
  cases a <;> cases b <;> simp only [Value.bitand] <;> first
    | trivial
    | (show Value.int _ = Value.int _; rw [Int64.and_comm])

theorem bitor_swap (a b : Value F) : SameEnd (a.bitor b) (b.bitor a) := by
  cases a <;> cases b <;> simp only [Value.bitor] <;> first
    | trivial
    | (show Value.int _ = Value.int _; rw [Int64.or_comm])

theorem bitxor_swap (a b : Value F) : SameEnd (a.bitxor b) (b.bitxor a) := by
  cases a <;> cases b <;> simp only [Value.bitxor] <;> first
    | trivial
    | (show Value.int _ = Value.int _; rw [Int64.xor_comm])

/-- Sums: only the order of two texts matters. -/
theorem add_swap (hf : FloatsCommute F) (a b : Value F) : SameEnd (a.add b) (b.add a) ↔ ∀ s t, a = .str s → b = .str t → s ++ t = t ++ s := by
  by_cases h : (∃ s, a = .str s) ∧ ∃ t, b = .str t
  · obtain ⟨⟨s, rfl⟩, t, rfl⟩ := h
    constructor
    · intro h s t e1 e2
      cases e1; cases e2
      injection (h : Value.str _ = Value.str _)
    · intro h
      show Value.str _ = Value.str _
      rw [h _ _ rfl rfl]
  · refine ⟨fun _ s t e1 e2 => absurd ⟨⟨s, e1⟩, t, e2⟩ h, fun _ => ?_⟩
    cases a <;> cases b <;> simp only [Value.add] <;> first
      | trivial
      | (rw [Int.add_comm]; exact sameEnd_refl _)
      | (show Value.float _ = Value.float _; rw [hf.1])
      | exact absurd ⟨⟨_, rfl⟩, _, rfl⟩ h

theorem lt_swap (hf : FloatsCompare F) (a b : Value F) : a.lt b = b.gt a := Bool.eq_iff_iff.2 (c26_mirror hf a b).1
theorem le_swap (hf : FloatsCompare F) (a b : Value F) : a.le b = b.ge a := Bool.eq_iff_iff.2 (c26_mirror hf a b).2

theorem feq_swap (hf : FloatsCompare F) (a b : F) : Rt.feq a b = Rt.feq b a := by
  rw [Bool.eq_iff_iff, hf.1, hf.1, hf.2 a b]
  cases Rt.fcmp b a with
  | none => simp
  | some o => cases o <;> simp [Ordering.swap]

theorem eq_swap_written (hf : FloatsCompare F) {e : Expr F} {a : Value F} (h : WrittenValue e a) (b : Value F) : a.eq b = b.eq a := by
  cases h <;> cases b <;> simp only [Value.eq] <;> first
    | rfl
    | exact feq_swap hf _ _
    | exact Bool.beq_comm
    | exact BEq.comm

/-! ## Three operands -/

theorem operate_regroup (call : Call F) (B : Value F → Prop) {m r : Expr F} (l : Expr F) (hr : PlainExpr r)
    (hm : ∀ s, (∃ v, B v ∧ evalExpr call m s = (.ok v, s)) ∨ ∃ e, evalExpr call m s = (.err e, s)) {op : Value F → Value F → Res (Value F)}
    (hne : ∀ a b, B b → op a b ≠ .panic ∧ op a b ≠ .hang) (hop : ∀ a b c, B b → SameEnd (op a b >>= fun x => op x c) (op b c >>= fun y => op a y))
    {u w : Token} (hu : binaryOp u.kind = some op) (hw : binaryOp w.kind = some op) :
    Does (operate call (.binary u l m) r op) (operate call l (.paren (.binary w m r)) op) := by
  have e0 : evalExpr call (.paren (.binary w m r)) = operate call m r op := by rw [← eval_operate call hw m r]; simp only [evalExpr]
  unfold operate
  rw [eval_operate call hu l m, e0]
  intro s
  show SameEnd (M.bind (M.bind _ _) _ s).1 (M.bind _ _ s).1 ∧ (M.bind (M.bind _ _) _ s).2 = (M.bind _ _ s).2
  unfold M.bind
  rcases evalExpr call l s with ⟨x, t⟩
  cases x with
  | err e => exact ⟨trivial, rfl⟩
  | panic => exact ⟨trivial, rfl⟩
  | hang => exact ⟨trivial, rfl⟩
  | ok a =>
    dsimp only
    have e1 : (do let b ← evalExpr call m; M.lift (op a b) : M F (Value F)) t = M.bind (evalExpr call m) (fun b => M.lift (op a b)) t := rfl
    have e2 : (do let b ← operate call m r op; M.lift (op a b) : M F (Value F)) t =
        M.bind (M.bind (evalExpr call m) fun b => M.bind (evalExpr call r) fun c => M.lift (op b c)) (fun b => M.lift (op a b)) t := rfl
    rw [e1, e2]
    unfold M.bind
    rcases hm t with ⟨b, hb, h1⟩ | ⟨e, h1⟩
    · obtain ⟨n1, n2⟩ := hne a b hb
      rcases plain_rests call hr t with ⟨c, h2⟩ | ⟨e, h2⟩
      · have k := hop a b c hb
        rw [h1]
        dsimp only
        rw [h2]
        dsimp only
        unfold M.lift
        cases h3 : op a b with
        | panic => exact absurd h3 n1
        | hang => exact absurd h3 n2
        | ok v =>
          rw [h3] at k
          dsimp only
          show SameEnd (M.bind (evalExpr call r) (fun c => M.lift (op v c)) t).1 _ ∧ (M.bind (evalExpr call r) (fun c => M.lift (op v c)) t).2 = _
          unfold M.bind
          rw [h2]
          cases h4 : op b c <;> rw [h4] at k <;> exact ⟨k, rfl⟩
        | err e =>
          rw [h3] at k
          dsimp only
          cases h4 : op b c <;> rw [h4] at k <;> exact ⟨k, rfl⟩
      · rw [h1]
        dsimp only
        rw [h2]
        dsimp only
        unfold M.lift
        cases h3 : op a b with
        | panic => exact absurd h3 n1
        | hang => exact absurd h3 n2
        | ok v =>
          dsimp only
          show SameEnd (M.bind (evalExpr call r) (fun c => M.lift (op v c)) t).1 _ ∧ (M.bind (evalExpr call r) (fun c => M.lift (op v c)) t).2 = _
          unfold M.bind
          rw [h2]
          exact ⟨trivial, rfl⟩
        | err e => exact ⟨trivial, rfl⟩
    · rw [h1]
      exact ⟨trivial, rfl⟩

theorem bit_regroup {k : Kind} (h : k = .Ba ∨ k = .Bo ∨ k = .Bx) : ∃ op, binaryOp (F := F) k = some op ∧ (∀ a b, op a b ≠ .panic ∧ op a b ≠ .hang) ∧
    ∀ a b c, SameEnd (op a b >>= fun x => op x c) (op b c >>= fun y => op a y) := by
  rcases h with rfl | rfl | rfl
  · refine ⟨_, rfl, fun a b => ?_, fun a b c => ?_⟩
    · cases a <;> cases b <;> exact ⟨fun h => (by cases h), fun h => (by cases h)⟩
    · cases a <;> cases b <;> cases c <;> first
        | trivial
        | (show Value.int _ = Value.int _; rw [Int64.and_assoc])
  · refine ⟨_, rfl, fun a b => ?_, fun a b c => ?_⟩
    · cases a <;> cases b <;> exact ⟨fun h => (by cases h), fun h => (by cases h)⟩
    · cases a <;> cases b <;> cases c <;> first
        | trivial
        | (show Value.int _ = Value.int _; rw [Int64.or_assoc])
  · refine ⟨_, rfl, fun a b => ?_, fun a b c => ?_⟩
    · cases a <;> cases b <;> exact ⟨fun h => (by cases h), fun h => (by cases h)⟩
    · cases a <;> cases b <;> cases c <;> first
        | trivial
        | (show Value.int _ = Value.int _; rw [Int64.xor_assoc])

theorem text_regroup (a c : Value F) (s : Str) : SameEnd (a.add (.str s) >>= fun x => x.add c) ((Value.str s).add c >>= fun y => a.add y) := by
  cases a <;> cases c <;> first
    | trivial
    | (show Value.str _ = Value.str _; rw [List.append_assoc])

/-- The rules keep the meaning. -/
theorem meant_turned (hc : FloatsCompare F) (hf : FloatsCommute F) : Meant (F := F) (Turned OrderFree) := by
  intro call e e' h
  cases h with
  | less t u l r h h1 h2 =>
    rw [eval_operate call (op := fun a b => .ok (.bool (a.lt b))) (by rw [h1]; rfl), eval_operate call (op := fun a b => .ok (.bool (a.gt b))) (by rw [h2]; rfl)]
    exact operate_apart call h fun a b => congrArg Value.bool (lt_swap hc a b)
  | atMost t u l r h h1 h2 =>
    rw [eval_operate call (op := fun a b => .ok (.bool (a.le b))) (by rw [h1]; rfl), eval_operate call (op := fun a b => .ok (.bool (a.ge b))) (by rw [h2]; rfl)]
    exact operate_apart call h fun a b => congrArg Value.bool (le_swap hc a b)
  | factors t l r h h1 =>
    rcases h1 with h1 | h1 | h1 | h1
    · rw [eval_operate call (op := Value.mul) (by rw [h1]; rfl), eval_operate call (op := Value.mul) (by rw [h1]; rfl)]
      exact operate_apart call h (mul_swap hf)
    · rw [eval_operate call (op := Value.bitand) (by rw [h1]; rfl), eval_operate call (op := Value.bitand) (by rw [h1]; rfl)]
      exact operate_apart call h bitand_swap
    · rw [eval_operate call (op := Value.bitor) (by rw [h1]; rfl), eval_operate call (op := Value.bitor) (by rw [h1]; rfl)]
      exact operate_apart call h bitor_swap
    · rw [eval_operate call (op := Value.bitxor) (by rw [h1]; rfl), eval_operate call (op := Value.bitxor) (by rw [h1]; rfl)]
      exact operate_apart call h bitxor_swap
  | equal t l r h h1 =>
    obtain ⟨v, h⟩ := h
    rcases h1 with h1 | h1
    · rw [eval_operate call (op := fun a b => .ok (.bool (a.eq b))) (by rw [h1]; rfl), eval_operate call (op := fun a b => .ok (.bool (a.eq b))) (by rw [h1]; rfl)]
      exact operate_literal call h r fun b => congrArg Value.bool (eq_swap_written hc h b)
    · rw [eval_operate call (op := fun a b => .ok (.bool (!a.eq b))) (by rw [h1]; rfl), eval_operate call (op := fun a b => .ok (.bool (!a.eq b))) (by rw [h1]; rfl)]
      exact operate_literal call h r fun b => congrArg (fun x => Value.bool (!x)) (eq_swap_written hc h b)
  | sum t l r h h1 =>
    rw [eval_operate call (op := Value.add) (by rw [h1]; rfl), eval_operate call (op := Value.add) (by rw [h1]; rfl)]
    rcases h with ⟨i, rfl⟩ | ⟨i, rfl⟩
    · exact operate_literal call (.int i) r fun b => (add_swap hf _ b).2 fun _ _ e => (by cases e)
    · exact operate_literal call (.float i) r fun b => (add_swap hf _ b).2 fun _ _ e => (by cases e)
  | regroup t u v w l m r hm hr h1 h2 h3 h4 =>
    obtain ⟨op, o1, o2, o3⟩ := bit_regroup (F := F) h4
    rw [eval_operate call (op := op) o1, eval_operate call (op := op) (t := v) (by rw [← h2, ← h1]; exact o1)]
    refine operate_regroup call (fun _ => True) l hr (fun s => ?_) (fun a b _ => o2 a b) (fun a b c _ => o3 a b c) (by rw [← h1]; exact o1) (by rw [← h3, ← h2, ← h1]; exact o1)
    rcases plain_rests call hm s with ⟨v, h⟩ | h
    · exact .inl ⟨v, trivial, h⟩
    · exact .inr h
  | joined t u v w l r s hr h1 h2 h3 h4 =>
    rw [eval_operate call (op := Value.add) (by rw [h1]; rfl), eval_operate call (t := v) (op := Value.add) (by rw [h3]; rfl)]
    refine operate_regroup call (fun b => b = .str s) l hr (fun x => .inl ⟨_, rfl, literal_rests call (.str s) x⟩) (fun a b hb => ?_) (fun a b c hb => ?_)
      (by rw [h2]; rfl) (by rw [h4]; rfl)
    · subst hb
      cases a <;> exact ⟨fun h => (by cases h), fun h => (by cases h)⟩
    · subst hb
      exact text_regroup a c s

end Am
