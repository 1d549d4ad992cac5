import Verif.Spec.Rewriting
import Verif.Proofs.Parens
import Verif.Proofs.Operators
/-! # Rewritten expressions do the same -/
set_option linter.unusedSimpArgs false
set_option linter.unusedSectionVars false
namespace Am
open Spec
variable {F : Type} [Rt F]

/-! ## Computations that do the same, apart from the wording of errors -/

/-- The same end in the same state. -/
def Does {α : Type} (m m' : M F α) : Prop := ∀ s, SameEnd (m s).1 (m' s).1 ∧ (m s).2 = (m' s).2

theorem sameEnd_refl {α : Type} (r : Res α) : SameEnd r r := by cases r <;> first | rfl | trivial

theorem sameEnd_symm {α : Type} {r r' : Res α} (h : SameEnd r r') : SameEnd r' r := by
  cases r <;> cases r' <;> first | exact h.symm | exact h

theorem sameEnd_trans {α : Type} {a b c : Res α} (h : SameEnd a b) (h' : SameEnd b c) : SameEnd a c := by
  cases a <;> cases b <;> cases c <;> first | exact Eq.trans h h' | trivial | exact (h : False).elim | exact (h' : False).elim

theorem Does.refl {α : Type} (m : M F α) : Does m m := fun _ => ⟨sameEnd_refl _, rfl⟩
theorem Does.of {α : Type} {m m' : M F α} (h : m = m') : Does m m' := h ▸ Does.refl m
theorem Does.symm {α : Type} {m m' : M F α} (h : Does m m') : Does m' m := fun s => ⟨sameEnd_symm (h s).1, (h s).2.symm⟩
theorem Does.trans {α : Type} {a b c : M F α} (h : Does a b) (h' : Does b c) : Does a c :=
  fun s => ⟨sameEnd_trans (h s).1 (h' s).1, (h s).2.trans (h' s).2⟩

theorem Does.bind {α β : Type} {x y : M F α} {f g : α → M F β} (h : Does x y) (h' : ∀ a, Does (f a) (g a)) : Does (x >>= f) (y >>= g) := by
  intro s
  have h1 := h s
  show SameEnd (M.bind x f s).1 (M.bind y g s).1 ∧ (M.bind x f s).2 = (M.bind y g s).2
  unfold M.bind
  rcases hx : x s with ⟨r, s1⟩
  rcases hy : y s with ⟨r', t1⟩
  rw [hx, hy] at h1
  obtain ⟨h1, h2⟩ := h1
  dsimp only at h1 h2
  subst h2
  cases r <;> cases r' <;> first | exact (h1 : False).elim | skip
  · cases (h1 : _ = _); exact h' _ s1
  · exact ⟨trivial, rfl⟩
  · exact ⟨trivial, rfl⟩
  · exact ⟨trivial, rfl⟩

/-- The same for the results that the first computation can have. -/
theorem Does.bind_of {α β : Type} {x : M F α} {f g : α → M F β} (h : ∀ s a s', x s = (.ok a, s') → Does (f a) (g a)) : Does (x >>= f) (x >>= g) := by
  intro s
  show SameEnd (M.bind x f s).1 (M.bind x g s).1 ∧ (M.bind x f s).2 = (M.bind x g s).2
  unfold M.bind
  rcases hx : x s with ⟨r, s1⟩
  cases r with
  | ok a => exact h s a s1 hx s1
  | err e => exact ⟨trivial, rfl⟩
  | panic => exact ⟨trivial, rfl⟩
  | hang => exact ⟨trivial, rfl⟩

theorem mbind_assoc {α β γ : Type} (x : M F α) (f : α → M F β) (g : β → M F γ) : (x >>= f) >>= g = x >>= fun a => f a >>= g := by
  funext s
  show M.bind (M.bind x f) g s = M.bind x (fun a => M.bind (f a) g) s
  unfold M.bind
  rcases x s with ⟨r, s1⟩
  cases r <;> rfl

theorem mbind_pure {α : Type} (x : M F α) : (x >>= fun a => (pure a : M F α)) = x := by
  funext s
  show M.bind x M.pure s = x s
  unfold M.bind
  rcases x s with ⟨r, s1⟩
  cases r <;> rfl

theorem pure_mbind {α β : Type} (a : α) (f : α → M F β) : ((pure a : M F α) >>= f) = f a := rfl

theorem lift_mbind {α β : Type} (a : α) (f : α → M F β) : (M.lift (.ok a) >>= f) = f a := rfl

/-! ## Logical expressions -/

theorem logical_value (call : Call F) {c : Expr F} (h : Logical c) : ∀ {s s' : St F} {v : Value F}, evalExpr call c s = (.ok v, s') → ∃ b, v = .bool b := by
  have split_bind : ∀ {α β : Type} {x : M F α} {f : α → M F β} {s s' : St F} {v : β}, (x >>= f) s = (.ok v, s') → ∃ a s1, x s = (.ok a, s1) ∧ f a s1 = (.ok v, s') := by
    intro α β x f s s' v e
    change M.bind x f s = _ at e
    unfold M.bind at e
    rcases hx : x s with ⟨r, s1⟩
    rw [hx] at e
    cases r with
    | ok a => exact ⟨a, s1, rfl, e⟩
    | err m => cases e
    | panic => cases e
    | hang => cases e
  induction h with
  | bool b => intro s s' v e; cases e; exact ⟨b, rfl⟩
  | compares t l r hk =>
    intro s s' v e
    have fin : ∀ (op : Value F → Value F → Bool), binaryOp (F := F) t.kind = some (fun l r => .ok (.bool (op l r))) → ∃ b, v = .bool b := by
      intro op hop
      simp only [evalExpr, hop] at e
      obtain ⟨a, s1, _, e⟩ := split_bind e
      obtain ⟨b, s2, _, e⟩ := split_bind e
      cases e
      exact ⟨_, rfl⟩
    rcases hk with h | h | h | h | h | h
    · exact fin Value.lt (by rw [h]; rfl)
    · exact fin Value.gt (by rw [h]; rfl)
    · exact fin Value.le (by rw [h]; rfl)
    · exact fin Value.ge (by rw [h]; rfl)
    · exact fin Value.eq (by rw [h]; rfl)
    · exact fin (fun l r => !l.eq r) (by rw [h]; rfl)
  | not t c hk _ ih =>
    intro s s' v e
    simp only [evalExpr] at e
    obtain ⟨a, s1, h1, e⟩ := split_bind e
    obtain ⟨b, rfl⟩ := ih h1
    unfold unaryValue at e
    rw [hk] at e
    cases b <;> (cases e; exact ⟨_, rfl⟩)
  | and t c d hk _ _ ih1 ih2 =>
    intro s s' v e
    simp only [evalExpr, hk, binaryOp, reduceCtorEq, if_false, if_true] at e
    obtain ⟨a, s1, h1, e⟩ := split_bind e
    by_cases hf : a.falsy = true
    · rw [if_pos hf] at e; cases e; exact ih1 h1
    · rw [if_neg hf] at e; exact ih2 e
  | or t c d hk _ _ ih1 ih2 =>
    intro s s' v e
    simp only [evalExpr, hk, binaryOp, reduceCtorEq, if_false, if_true] at e
    obtain ⟨a, s1, h1, e⟩ := split_bind e
    by_cases hf : a.falsy = true
    · rw [if_pos hf] at e; exact ih2 e
    · rw [if_neg hf] at e; cases e; exact ih1 h1
  | paren c _ ih => intro s s' v e; exact ih e

theorem writtenValue_eval (call : Call F) {e : Expr F} {v : Value F} (h : WrittenValue e v) : evalExpr call e = pure v := by cases h <;> rfl

theorem writtenValue_proper {e : Expr F} {v : Value F} (h : WrittenValue e v) : Proper v := by cases h <;> constructor

/-! ## Every rule -/

theorem unary_not_bool (t : Token) (h : t.kind = .Not) (b : Bool) : unaryValue t (.bool b : Value F) = .ok (.bool (!b)) := by
  unfold unaryValue
  rw [h]
  cases b <;> rfl

theorem eval_and (call : Call F) (t : Token) (h : t.kind = .La) (l r : Expr F) :
    evalExpr call (.binary t l r) = evalExpr call l >>= fun a => if a.falsy then pure a else evalExpr call r := by
  simp only [evalExpr, h, binaryOp, reduceCtorEq, if_false, if_true]

theorem eval_or (call : Call F) (t : Token) (h : t.kind = .Lo) (l r : Expr F) :
    evalExpr call (.binary t l r) = evalExpr call l >>= fun a => if a.falsy then evalExpr call r else pure a := by
  simp only [evalExpr, h, binaryOp, reduceCtorEq, if_false, if_true]

theorem eval_if (call : Call F) (c : Expr F) (a b : List (Expr F)) :
    evalExpr call (.ifE c a b) = evalExpr call c >>= fun v => if v.falsy then evalBlock call .null b else evalBlock call .null a := by
  simp only [evalExpr]

theorem eval_one (call : Call F) (e : Expr F) : evalBlock call .null [e] = evalExpr call e := by
  simp only [evalBlock]
  exact mbind_pure _

theorem eval_not (call : Call F) (t : Token) (c : Expr F) : evalExpr call (.unary t c) = evalExpr call c >>= fun v => M.lift (unaryValue t v) := by
  simp only [evalExpr]

theorem eval_paren (call : Call F) (c : Expr F) : evalExpr call (.paren c) = evalExpr call c := by simp only [evalExpr]

theorem rule_does (call : Call F) {e e' : Expr F} (h : Rule Logical e e') : Does (evalExpr call e) (evalExpr call e') := by
  cases h with
  | field l n =>
    simp only [evalExpr]
    refine Does.bind (Does.refl _) fun v => ?_
    change Does (M.lift (fieldValue v n)) (M.lift (indexValue v (.str n)))
    intro s
    cases v <;> first | exact ⟨sameEnd_refl _, rfl⟩ | exact ⟨trivial, rfl⟩
  | paren e => exact Does.of (eval_paren call _)
  | notEqual t u w l r h1 h2 h3 =>
    rw [eval_not, eval_paren]
    simp only [evalExpr, h2, h3, binaryOp]
    rw [mbind_assoc]
    refine Does.bind (Does.refl _) fun a => ?_
    rw [mbind_assoc]
    refine Does.bind (Does.refl _) fun b => ?_
    rw [lift_mbind, unary_not_bool t h1]
    exact Does.refl _
  | notDiffers t u w l r h1 h2 h3 =>
    rw [eval_not, eval_paren]
    simp only [evalExpr, h2, h3, binaryOp]
    rw [mbind_assoc]
    refine Does.bind (Does.refl _) fun a => ?_
    rw [mbind_assoc]
    refine Does.bind (Does.refl _) fun b => ?_
    rw [lift_mbind, unary_not_bool t h1, Bool.not_not]
    exact Does.refl _
  | constant t l r e a b v h1 h2 h3 h4 =>
    cases hop : binaryOp (F := F) t.kind with
    | none =>
      exfalso
      cases h4 with
      | computes hs _ => revert hs hop; cases t.kind <;> (intro hop hs; first | (cases hs; done) | (cases hop; done))
      | compares hs _ => revert hs hop; cases t.kind <;> (intro hop hs; first | (cases hs; done) | (cases hop; done))
    | some op =>
      have := (operates_iff hop (writtenValue_proper h1) (writtenValue_proper h2) (.ok v)).1 h4
      simp only [evalExpr, hop]
      rw [writtenValue_eval call h1, writtenValue_eval call h2, writtenValue_eval call h3, pure_mbind, pure_mbind, ← this]
      exact Does.refl _
  | ifTrue e b => exact Does.of ((eval_if call _ _ _).trans (eval_one call _))
  | ifFalse e b => exact Does.of ((eval_if call _ _ _).trans (eval_one call _))
  | trueAnd t e h => exact Does.of (eval_and call t h _ _)
  | falseOr t e h => exact Does.of (eval_or call t h _ _)
  | falseAnd t e h => exact Does.of (eval_and call t h _ _)
  | trueOr t e h => exact Does.of (eval_or call t h _ _)
  | exchange t c a b hc h =>
    rw [eval_if, eval_if, eval_not, mbind_assoc]
    refine Does.bind_of fun s v s' hv => ?_
    obtain ⟨x, rfl⟩ := logical_value call hc hv
    rw [unary_not_bool t h, lift_mbind]
    cases x <;> exact Does.refl _
  | twice t u c hc h1 h2 =>
    rw [eval_not, eval_not, mbind_assoc]
    refine Does.trans (Does.bind_of (g := fun a => pure a) fun s v s' hv => ?_) (Does.of (mbind_pure _))
    obtain ⟨x, rfl⟩ := logical_value call hc hv
    rw [unary_not_bool u h2, lift_mbind, unary_not_bool t h1, Bool.not_not]
    exact Does.refl _
  | notAnd t u v w o c d hc hd h1 h2 h3 h4 h5 =>
    rw [eval_not, eval_paren, eval_and call u h4, eval_or call o h5, eval_not, eval_not, mbind_assoc, mbind_assoc]
    refine Does.bind_of fun s x s' hx => ?_
    obtain ⟨x, rfl⟩ := logical_value call hc hx
    rw [unary_not_bool v h2, lift_mbind]
    cases x with
    | false =>
      change Does (M.lift (unaryValue t (.bool false))) (pure (.bool true))
      rw [unary_not_bool t h1]
      exact Does.refl _
    | true =>
      change Does (evalExpr call d >>= fun v => M.lift (unaryValue t v)) (evalExpr call d >>= fun v => M.lift (unaryValue w v))
      refine Does.bind_of fun s y s' hy => ?_
      obtain ⟨y, rfl⟩ := logical_value call hd hy
      rw [unary_not_bool t h1, unary_not_bool w h3]
      exact Does.refl _
  | notOr t u v w o c d hc hd h1 h2 h3 h4 h5 =>
    rw [eval_not, eval_paren, eval_or call u h4, eval_and call o h5, eval_not, eval_not, mbind_assoc, mbind_assoc]
    refine Does.bind_of fun s x s' hx => ?_
    obtain ⟨x, rfl⟩ := logical_value call hc hx
    rw [unary_not_bool v h2, lift_mbind]
    cases x with
    | true =>
      change Does (M.lift (unaryValue t (.bool true))) (pure (.bool false))
      rw [unary_not_bool t h1]
      exact Does.refl _
    | false =>
      change Does (evalExpr call d >>= fun v => M.lift (unaryValue t v)) (evalExpr call d >>= fun v => M.lift (unaryValue w v))
      refine Does.bind_of fun s y s' hy => ?_
      obtain ⟨y, rfl⟩ := logical_value call hd hy
      rw [unary_not_bool t h1, unary_not_bool w h3]
      exact Does.refl _
  | andIf t c e hc h =>
    rw [eval_and call t h, eval_if, eval_one, eval_one]
    refine Does.bind_of fun s x s' hx => ?_
    obtain ⟨x, rfl⟩ := logical_value call hc hx
    cases x <;> exact Does.refl _
  | orIf t c e hc h =>
    rw [eval_or call t h, eval_if, eval_one, eval_one]
    refine Does.bind_of fun s x s' hx => ?_
    obtain ⟨x, rfl⟩ := logical_value call hc hx
    cases x <;> exact Does.refl _

/-! ## At any places -/

/-- Rules that change nothing but the wording of errors, however the calls behave. -/
def Meant (R : Expr F → Expr F → Prop) : Prop := ∀ (call : Call F) (e e' : Expr F), R e e' → Does (evalExpr call e) (evalExpr call e')

variable {R : Expr F → Expr F → Prop}

mutual
theorem rewritten_does (hR : Meant R) (call : Call F) : ∀ {e e' : Expr F}, Rewritten R e e' → Does (evalExpr call e) (evalExpr call e')
  | _, _, .same e => Does.refl _
  | _, _, .rule h => hR call _ _ h
  | _, _, .back h => (hR call _ _ h).symm
  | _, _, .also h h' => (rewritten_does hR call h).trans (rewritten_does hR call h')
  | _, _, .arr h => by
    simp only [evalExpr]
    exact Does.bind (rewrittenList_does hR call h) fun _ => Does.refl _
  | _, _, .map h => by
    simp only [evalExpr]
    exact Does.bind (rewrittenPairs_does hR call h []) fun _ => Does.refl _
  | _, _, .index h h' => by
    simp only [evalExpr]
    exact Does.bind (rewritten_does hR call h) fun _ => Does.bind (rewritten_does hR call h') fun _ => Does.refl _
  | _, _, .field n h => by
    simp only [evalExpr]
    exact Does.bind (rewritten_does hR call h) fun _ => Does.refl _
  | _, _, .letE n h => by
    simp only [evalExpr]
    exact Does.bind (rewritten_does hR call h) fun _ => Does.refl _
  | _, _, .unary t h => by
    simp only [evalExpr]
    exact Does.bind (rewritten_does hR call h) fun _ => Does.refl _
  | _, _, .binary (l := l) (l' := l') (r := r) (r' := r') t h h' => by
    have ih := rewritten_does hR call h
    have ih' := rewritten_does hR call h'
    cases hop : binaryOp (F := F) t.kind with
    | some op =>
      simp only [evalExpr, hop]
      exact Does.bind ih fun _ => Does.bind ih' fun _ => Does.refl _
    | none =>
      simp only [evalExpr, hop]
      by_cases h1 : t.kind = .Lo
      · rw [if_pos h1, if_pos h1]
        refine Does.bind ih fun a => ?_
        by_cases hf : a.falsy = true
        · rw [if_pos hf, if_pos hf]; exact ih'
        · rw [if_neg hf, if_neg hf]; exact Does.refl _
      · rw [if_neg h1, if_neg h1]
        by_cases h2 : t.kind = .La
        · rw [if_pos h2, if_pos h2]
          refine Does.bind ih fun a => ?_
          by_cases hf : a.falsy = true
          · rw [if_pos hf, if_pos hf]; exact Does.refl _
          · rw [if_neg hf, if_neg hf]; exact ih'
        · rw [if_neg h2, if_neg h2]
          exact fun s => ⟨trivial, rfl⟩
  | _, _, .paren h => by
    simp only [evalExpr]
    exact rewritten_does hR call h
  | _, _, .ifE h ha hb => by
    simp only [evalExpr]
    refine Does.bind (rewritten_does hR call h) fun v => ?_
    by_cases hf : v.falsy = true
    · rw [if_pos hf, if_pos hf]; exact rewrittenBlock_does hR call hb .null
    · rw [if_neg hf, if_neg hf]; exact rewrittenBlock_does hR call ha .null
  | _, _, .call f h => by
    simp only [evalExpr]
    exact Does.bind (rewrittenList_does hR call h) fun _ => Does.refl _
theorem rewrittenList_does (hR : Meant R) (call : Call F) : ∀ {l l' : List (Expr F)}, RewrittenList R l l' → Does (evalList call l) (evalList call l')
  | _, _, .nil => Does.refl _
  | _, _, .cons h h' => by
    simp only [evalList]
    exact Does.bind (rewritten_does hR call h) fun _ => Does.bind (rewrittenList_does hR call h') fun _ => Does.refl _
theorem rewrittenBlock_does (hR : Meant R) (call : Call F) : ∀ {l l' : List (Expr F)}, RewrittenList R l l' → ∀ acc, Does (evalBlock call acc l) (evalBlock call acc l')
  | _, _, .nil, _ => Does.refl _
  | _, _, .cons h h', _ => by
    simp only [evalBlock]
    exact Does.bind (rewritten_does hR call h) fun v => rewrittenBlock_does hR call h' v
theorem rewrittenPairs_does (hR : Meant R) (call : Call F) : ∀ {l l' : List (Expr F × Expr F)}, RewrittenPairs R l l' → ∀ acc, Does (evalPairs call acc l) (evalPairs call acc l')
  | _, _, .nil, _ => Does.refl _
  | _, _, .cons h1 h2 h3, _ => by
    simp only [evalPairs]
    exact Does.bind (rewritten_does hR call h1) fun _ => Does.bind (rewritten_does hR call h2) fun _ => rewrittenPairs_does hR call h3 _
end

/-! ## Asserts -/

/-- Asserts with the same outcomes in the same state. -/
def SameChecked (x y : Res (List Assert) × St F) : Prop :=
  x.2 = y.2 ∧ match x.1, y.1 with
    | .ok as, .ok as' => Each SameOutcome as as'
    | .err _, .err _ => True
    | .panic, .panic => True
    | .hang, .hang => True
    | _, _ => False

theorem Does.orElse {α : Type} {m m' : M F α} (h : Does m m') (d : α) : m.orElse d = m'.orElse d := by
  funext s
  have h := h s
  unfold M.orElse
  rcases hx : m s with ⟨r, s1⟩
  rcases hy : m' s with ⟨r', t1⟩
  rw [hx, hy] at h
  obtain ⟨h1, h2⟩ := h
  dsimp only at h1 h2
  subst h2
  cases r <;> cases r' <;> first | exact (h1 : False).elim | rfl | (cases (h1 : _ = _); rfl)

theorem sameOutcome_refl (as : List Assert) : Each SameOutcome as as := by
  induction as with
  | nil => exact .nil
  | cons a as ih => exact .cons ⟨rfl, rfl, rfl, rfl⟩ ih

theorem evalAsserts_rewritten (hR : Meant R) (call : Call F) {as as' : List (Expr F)} (h : Each (RewrittenAssert R) as as') (s : St F) :
    SameChecked (evalAsserts call as s) (evalAsserts call as' s) := by
  have comb : ∀ {a a' : Expr F} {as as' : List (Expr F)}, RewrittenAssert R a a' →
      (∀ s, SameChecked (evalAsserts call as s) (evalAsserts call as' s)) → ∀ s, SameChecked (evalAsserts call (a :: as) s) (evalAsserts call (a' :: as') s) := by
    intro a a' as as' ha ih s
    have go : ∀ (t : Token) (l r l' r' : Expr F), Rewritten R l l' → Rewritten R r r' →
        SameChecked (evalAsserts call (.binary t l r :: as) s) (evalAsserts call (.binary t l' r' :: as') s) := by
      intro t l r l' r' h1 h2
      simp only [evalAsserts]
      rw [(rewritten_does hR call h1).orElse .null, (rewritten_does hR call h2).orElse .null]
      show SameChecked (M.bind _ _ s) (M.bind _ _ s)
      unfold M.bind
      rcases (evalExpr call l').orElse .null s with ⟨x, s1⟩
      cases x with
      | ok a =>
        dsimp only
        show SameChecked (M.bind _ _ s1) (M.bind _ _ s1)
        unfold M.bind
        rcases (evalExpr call r').orElse .null s1 with ⟨y, s2⟩
        cases y with
        | ok b =>
          dsimp only
          show SameChecked (M.bind _ _ s2) (M.bind _ _ s2)
          unfold M.bind
          have ih := ih s2
          rcases hx : evalAsserts call as s2 with ⟨z, s3⟩
          rcases hy : evalAsserts call as' s2 with ⟨z', s3'⟩
          rw [hx, hy] at ih
          obtain ⟨ih1, ih2⟩ := ih
          dsimp only at ih1 ih2
          subst ih1
          cases z <;> cases z' <;> first | exact absurd ih2 id | skip
          · dsimp only at ih2 ⊢
            cases compareValues t.kind a b with
            | none => exact ⟨rfl, ih2⟩
            | some result => exact ⟨rfl, .cons ⟨rfl, rfl, rfl, rfl⟩ ih2⟩
          · exact ⟨rfl, trivial⟩
          · exact ⟨rfl, trivial⟩
          · exact ⟨rfl, trivial⟩
        | err e => exact ⟨rfl, trivial⟩
        | panic => exact ⟨rfl, trivial⟩
        | hang => exact ⟨rfl, trivial⟩
      | err e => exact ⟨rfl, trivial⟩
      | panic => exact ⟨rfl, trivial⟩
      | hang => exact ⟨rfl, trivial⟩
    cases ha with
    | sides t h1 h2 => exact go t _ _ _ _ h1 h2
    | same =>
      by_cases hb : ∃ t l r, a = .binary t l r
      · obtain ⟨t, l, r, rfl⟩ := hb
        exact go t l r l r (.same _) (.same _)
      · have hb : ∀ t l r, a ≠ .binary t l r := fun t l r e => hb ⟨t, l, r, e⟩
        rw [evalAsserts_skip call hb, evalAsserts_skip call hb]
        exact ih s
  induction h generalizing s with
  | nil => exact ⟨rfl, .nil⟩
  | cons ha _ ih => exact comb ha ih s

/-! ## Evaluation where the requests have rewritten asserts -/

/-- The same end in such states. -/
def Follows (R : Expr F → Expr F → Prop) {α : Type} (_ : Nat) (m m' : M F α) : Prop :=
  ∀ s t, SameButRewritten R s t → SameEnd (m s).1 (m' t).1 ∧ SameButRewritten R (m s).2 (m' t).2

theorem follows_lift {α : Type} (n : Nat) (r : Res α) : Follows (F := F) R n (M.lift r) (M.lift r) := fun _ _ h => ⟨sameEnd_refl r, h⟩

theorem follows_bind {α β : Type} {m n : Nat} {x y : M F α} {f g : α → M F β} (h : Follows R m x y) (h' : ∀ a, Follows R n (f a) (g a)) :
    Follows R (m + n) (x >>= f) (y >>= g) := by
  intro s t hs
  have h1 := h s t hs
  show SameEnd (M.bind x f s).1 (M.bind y g t).1 ∧ SameButRewritten R (M.bind x f s).2 (M.bind y g t).2
  unfold M.bind
  rcases hx : x s with ⟨r, s1⟩
  rcases hy : y t with ⟨r', t1⟩
  rw [hx, hy] at h1
  obtain ⟨h1, h2⟩ := h1
  dsimp only at h1 h2
  cases r <;> cases r' <;> first | exact (h1 : False).elim | skip
  · cases (h1 : _ = _); exact h' _ s1 t1 h2
  · exact ⟨trivial, h2⟩
  · exact ⟨trivial, h2⟩
  · exact ⟨trivial, h2⟩

theorem follows_closed : Closed (F := F) (Follows R) where
  pure a := fun _ _ h => ⟨rfl, h⟩
  bind := follows_bind
  mono := fun _ h => h
  ident n := by
    intro s t h
    have hg : s.ctx.get n = t.ctx.get n := by unfold Context.get; rw [h.variables]
    unfold readVar
    rw [hg]
    split <;> exact ⟨sameEnd_refl _, h⟩
  lift _ _ := follows_lift 0 _

theorem follows_write (n : Str) (v : Value F) : Follows R 0 (writeVar n v) (writeVar n v) := by
  intro s t ⟨h1, h2, h3, h4, h5⟩
  exact ⟨rfl, congrArg (amInsert n v) h1, h2, h3, h4, h5⟩

theorem follows_say (text : Str) : Follows (F := F) R 0 (M.modify fun s => { s with out := s.out ++ text }) (M.modify fun s => { s with out := s.out ++ text }) := by
  intro s t ⟨h1, h2, h3, h4, h5⟩
  exact ⟨rfl, h1, h2, h3, h4, congrArg (· ++ text) h5⟩

theorem follows_native (name : Str) (args : List (Value F)) : Follows R 1 (callNative name args) (callNative name args) := by
  unfold callNative
  simp only [List.append_assoc]
  split
  · exact follows_bind (m := 1) (n := 0) (follows_lift 1 _) fun v => follows_bind (m := 0) (n := 0) (follows_say _) fun _ => follows_closed.pure _
  · split
    · exact follows_bind (m := 1) (n := 0) (follows_lift 1 _) fun v => follows_bind (m := 0) (n := 0) (follows_say _) fun _ => follows_closed.pure _
    · repeat (first | exact follows_lift 1 _ | split)

theorem follows_request (hR : Meant R) (net : Net) (call : Call F) (name msg : Str) {as as' : List (Expr F)} (h : Each (RewrittenAssert R) as as') :
    Follows R 1 (callRequest net call name msg as) (callRequest net call name msg as') := by
  intro s t hs
  rw [callRequest_exchange, callRequest_exchange, render_inner hs.variables, hs.sent]
  generalize render t.ctx msg = text
  generalize hbefore : t.sent = before
  clear hbefore
  revert s t
  show Follows R (0 + 0) _ _
  unfold exchangeOf
  refine follows_bind (m := 0) (n := 0) (fun s t ⟨h1, h2, h3, h4, h5⟩ => ⟨rfl, h1, h2, h3, congrArg (· ++ [text]) h4, h5⟩) fun _ => ?_
  refine follows_bind (m := 0) (n := 0) (follows_lift 0 _) fun p => ?_
  refine follows_bind (m := 0) (n := 0) (follows_lift 0 _) fun map => ?_
  intro s t ⟨h1, h2, h3, h4, h5⟩
  show SameEnd (M.bind _ _ s).1 (M.bind _ _ t).1 ∧ SameButRewritten R (M.bind _ _ s).2 (M.bind _ _ t).2
  unfold M.bind inLocal
  rw [h4, h5]
  have hc := evalAsserts_rewritten hR call h { ctx := Context.ofMap map, sent := t.sent, out := t.out }
  rcases hx : evalAsserts call as { ctx := Context.ofMap map, sent := t.sent, out := t.out } with ⟨x, u⟩
  rcases hy : evalAsserts call as' { ctx := Context.ofMap map, sent := t.sent, out := t.out } with ⟨y, v⟩
  rw [hx, hy] at hc
  obtain ⟨hc1, hc2⟩ := hc
  dsimp only at hc1 hc2
  subst hc1
  cases x <;> cases y <;> first | exact absurd hc2 id | skip
  · exact ⟨rfl, h1, h2, each_snoc h3 ⟨rfl, rfl, rfl, rfl, rfl, hc2⟩, rfl, rfl⟩
  · exact ⟨trivial, h1, h2, h3, rfl, rfl⟩
  · exact ⟨trivial, h1, h2, h3, rfl, rfl⟩
  · exact ⟨trivial, h1, h2, h3, rfl, rfl⟩

theorem rewrittenDefinition_get {R : Expr F → Expr F → Prop} {l l' : List (Str × (Str × List (Expr F)))} (h : Each (RewrittenDefinition R) l l') (n : Str) :
    (amGet n l = none ∧ amGet n l' = none) ∨ ∃ m as as', amGet n l = some (m, as) ∧ amGet n l' = some (m, as') ∧ Each (RewrittenAssert R) as as' := by
  induction h with
  | nil => exact .inl ⟨rfl, rfl⟩
  | @cons p p' l l' hp _ ih =>
    obtain ⟨k, m, as⟩ := p
    obtain ⟨k', m', as'⟩ := p'
    obtain ⟨e1, e2, e3⟩ := hp
    dsimp only at e1 e2 e3
    subst e1 e2
    simp only [amGet]
    by_cases hn : k = n
    · rw [if_pos hn, if_pos hn]
      exact .inr ⟨m, as, as', rfl, rfl, e3⟩
    · rw [if_neg hn, if_neg hn]
      exact ih

theorem follows_callAt (hR : Meant R) (net : Net) : ∀ (n : Nat) (name : Str) (args : List (Value F)), Follows R 1 (callAt net n name args) (callAt net n name args)
  | n, name, args => by
    intro s t hs
    have hd := rewrittenDefinition_get hs.requests name
    cases n with
    | zero =>
      unfold callAt Context.request
      rcases hd with ⟨h1, h2⟩ | ⟨m, as, as', h1, h2, _⟩
      · rw [h1, h2]; exact follows_native name args s t hs
      · rw [h1, h2]; exact ⟨trivial, hs⟩
    | succ n =>
      unfold callAt Context.request
      rcases hd with ⟨h1, h2⟩ | ⟨m, as, as', h1, h2, h3⟩
      · rw [h1, h2]; exact follows_native name args s t hs
      · rw [h1, h2]
        exact follows_request hR net _ name m h3 s t hs

theorem follows_runBlock (hR : Meant R) (net : Net) {es es' : List (Expr F)} (h : RewrittenList R es es') : Follows R 0 (runBlock net es) (runBlock net es') := by
  intro s t hs
  have h1 := rewrittenBlock_does hR (callAt net 1) h .null s
  have h2 := evalBlock_closed follows_closed (follows_callAt hR net 1) es' .null (fun n _ v => follows_write n v) (fun _ _ => .inl fun _ => follows_lift 0 _) s t hs
  unfold runBlock
  exact ⟨sameEnd_trans h1.1 h2.1, h1.2 ▸ h2.2⟩

/-! ## Sources -/

theorem rewrittenDefinition_insert {R : Expr F → Expr F → Prop} {l l' : List (Str × (Str × List (Expr F)))} (h : Each (RewrittenDefinition R) l l') (n m : Str)
    {as as' : List (Expr F)} (ha : Each (RewrittenAssert R) as as') : Each (RewrittenDefinition R) (amInsert n (m, as) l) (amInsert n (m, as') l') := by
  induction h with
  | nil => exact .cons ⟨rfl, rfl, ha⟩ .nil
  | @cons p p' l l' hp hl ih =>
    obtain ⟨k, m1, as1⟩ := p
    obtain ⟨k', m1', as1'⟩ := p'
    obtain ⟨e1, e2, e3⟩ := hp
    dsimp only at e1 e2 e3
    subst e1 e2
    simp only [amInsert]
    by_cases hn : k = n
    · rw [if_pos hn, if_pos hn]; exact .cons ⟨rfl, rfl, ha⟩ hl
    · rw [if_neg hn, if_neg hn]; exact .cons ⟨rfl, rfl, e3⟩ ih

theorem rewrittenDefinition_extend {R : Expr F → Expr F → Prop} {l l' : List (Str × (Str × List (Expr F)))} (h : Each (RewrittenDefinition R) l l')
    {m m' : List (Str × (Str × List (Expr F)))} (hm : Each (RewrittenDefinition R) m m') : Each (RewrittenDefinition R) (amExtend l m) (amExtend l' m') := by
  induction hm generalizing l l' with
  | nil => exact h
  | @cons p p' m m' hp _ ih =>
    obtain ⟨k, t, as⟩ := p
    obtain ⟨k', t', as'⟩ := p'
    obtain ⟨e1, e2, e3⟩ := hp
    dsimp only at e1 e2 e3
    subst e1 e2
    exact ih (rewrittenDefinition_insert h k t e3)

theorem rewrittenList_append {R : Expr F → Expr F → Prop} {a a' b b' : List (Expr F)} (h : RewrittenList R a a') (h' : RewrittenList R b b') :
    RewrittenList R (a ++ b) (a' ++ b') := by
  induction a generalizing a' with
  | nil => cases h; exact h'
  | cons e a ih => cases h with | cons h1 h2 => exact .cons h1 (ih h2)

theorem rewrittenItems_source {R : Expr F → Expr F → Prop} {is is' : List (Item F)} (h : Each (RewrittenItem R) is is') : ∀ {src src' : Source F},
    RewrittenList R src.exprs src'.exprs → Each (RewrittenDefinition R) src.requests src'.requests →
    RewrittenList R (is.foldl addItem src).exprs (is'.foldl addItem src').exprs ∧
      Each (RewrittenDefinition R) (is.foldl addItem src).requests (is'.foldl addItem src').requests := by
  induction h with
  | nil => intro src src' h1 h2; exact ⟨h1, h2⟩
  | cons hi _ ih =>
    intro src src' h1 h2
    rw [List.foldl_cons, List.foldl_cons]
    cases hi with
    | expr he => exact ih (rewrittenList_append h1 (.cons he .nil)) h2
    | request n m ha => exact ih h1 (rewrittenDefinition_insert h2 n m ha)
    | test n _ => exact ih h1 h2

/-- Tests with the same names in the same order and rewritten blocks. -/
theorem rewrittenTests_insert {R : Expr F → Expr F → Prop} {l l' : List (Str × List (Expr F))} (h : Each (fun p p' => p.1 = p'.1 ∧ RewrittenList R p.2 p'.2) l l') (n : Str)
    {b b' : List (Expr F)} (hb : RewrittenList R b b') : Each (fun p p' => p.1 = p'.1 ∧ RewrittenList R p.2 p'.2) (amInsert n b l) (amInsert n b' l') := by
  induction h with
  | nil => exact .cons ⟨rfl, hb⟩ .nil
  | @cons p p' l l' hp hl ih =>
    obtain ⟨k, c⟩ := p
    obtain ⟨k', c'⟩ := p'
    obtain ⟨e1, e2⟩ := hp
    dsimp only at e1 e2
    subst e1
    simp only [amInsert]
    by_cases hn : k = n
    · rw [if_pos hn, if_pos hn]; exact .cons ⟨rfl, hb⟩ hl
    · rw [if_neg hn, if_neg hn]; exact .cons ⟨rfl, e2⟩ ih

theorem rewrittenItems_tests {R : Expr F → Expr F → Prop} {is is' : List (Item F)} (h : Each (RewrittenItem R) is is') : ∀ {src src' : Source F},
    Each (fun p p' => p.1 = p'.1 ∧ RewrittenList R p.2 p'.2) src.tests src'.tests →
    Each (fun p p' => p.1 = p'.1 ∧ RewrittenList R p.2 p'.2) (is.foldl addItem src).tests (is'.foldl addItem src').tests := by
  induction h with
  | nil => intro src src' h; exact h
  | cons hi _ ih =>
    intro src src' h
    rw [List.foldl_cons, List.foldl_cons]
    cases hi with
    | expr he => exact ih h
    | request n m ha => exact ih h
    | test n hb => exact ih (rewrittenTests_insert h n hb)

end Am
