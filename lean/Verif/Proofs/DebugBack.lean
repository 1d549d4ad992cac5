import Verif.Proofs.PrintsBackAgain
import Verif.Proofs.FaultSites
import Verif.Spec.DebugTree
/-!
# The tree with parentheses can be read too

From the way an expression was read, a way to read the expression with parentheses around its operators (C97).
-/
set_option linter.unusedSimpArgs false
set_option linter.unusedSectionVars false
namespace Am
open Spec
variable {F : Type} [Rt F]

theorem extends_lower {p q : Nat} (hpq : p ≤ q) {l e : Expr F} {us rest : List Token} (h : Extends q l us e rest) : Extends p l us e rest := by
  match h with
  | .nil _ _ _ => exact .nil _ _ _
  | .binary _ op l r e ts us rest h1 h2 h3 => exact .binary _ op l r e ts us rest (by omega) h2 (extends_lower hpq h3)
  | .call _ b c f es e ts us rest h0 h1 h2 h3 h4 => exact .call _ b c f es e ts us rest (by omega) h1 h2 h3 (extends_lower hpq h4)
  | .index _ b c l i e ts us rest h0 h1 h2 h3 h4 => exact .index _ b c l i e ts us rest (by omega) h1 h2 h3 (extends_lower hpq h4)
  | .field _ d n l e ts rest h0 h1 h2 h3 => exact .field _ d n l e ts rest (by omega) h1 h2 (extends_lower hpq h3)

/-- The level after the first operand, where the level before it is `p`. -/
def levelAfter (q p : Nat) : Nat := if q = 255 then 255 else p

theorem primary_lower {p q : Nat} (hp : p < 255) (p' : Nat) {l : Expr F} {ts us : List Token} (h : Primary p ts l q us) :
    (q = p ∨ q = 255) ∧ Primary p' ts l (levelAfter q p') us := by
  have n : levelAfter p p' = p' := by simp only [levelAfter]; rw [if_neg (by omega)]
  cases h with
  | ident _ t r hk => rw [n]; exact ⟨.inl rfl, .ident _ t _ hk⟩
  | int _ t i r hk hi => rw [n]; exact ⟨.inl rfl, .int _ t i _ hk hi⟩
  | float _ t i r hk hi => rw [n]; exact ⟨.inl rfl, .float _ t i _ hk hi⟩
  | bool _ t b r hk hb => rw [n]; exact ⟨.inl rfl, .bool _ t b _ hk hb⟩
  | str _ t r hk => rw [n]; exact ⟨.inl rfl, .str _ t _ hk⟩
  | letE _ l n a e ts r hl hn ha hw => exact ⟨.inr rfl, .letE _ l n a e ts r hl hn ha hw⟩
  | unary _ t e ts r hk hw => rw [n]; exact ⟨.inl rfl, .unary _ t e ts _ hk hw⟩
  | paren _ l d e ts r hl hd hw => rw [n]; exact ⟨.inl rfl, .paren _ l d e ts _ hl hd hw⟩
  | ifThen _ i l c b d e es ts us r hi hl hc hb hd hw hs hnn => rw [n]; exact ⟨.inl rfl, .ifThen _ i l c b d e es ts us _ hi hl hc hb hd hw hs hnn⟩
  | ifElse _ i l c b d el b' d' e es es' ts us vs r hi hl hc hb hd hel hb' hd' hw hs hs' =>
    rw [n]; exact ⟨.inl rfl, .ifElse _ i l c b d el b' d' e es es' ts us vs _ hi hl hc hb hd hel hb' hd' hw hs hs'⟩
  | arr _ l c es ts r hl hc hi => rw [n]; exact ⟨.inl rfl, .arr _ l c es ts _ hl hc hi⟩
  | map _ l c ps ts r hl hc hi => rw [n]; exact ⟨.inl rfl, .map _ l c ps ts _ hl hc hi⟩

/-- The expression can be read at every lower level, before what can follow it. -/
def Lowered (p q : Nat) (rest : List Token) (e : Expr F) : Prop :=
  ∃ pre, ∀ p', p' ≤ p → ∀ rest', Trails rest rest' → PR p' (levelAfter q p') (pre ++ rest') e rest'

theorem pr_lowered {p q : Nat} (hp : p < 255) {ts rest : List Token} {e : Expr F} (h : PR p q ts e rest) : Lowered p q rest e := by
  obtain ⟨l, us, h1, h2⟩ := h
  obtain ⟨t0, pre, h3, h4⟩ := primary_swap h1
  obtain ⟨pre2, h5, h6⟩ := extends_swap h2
  refine ⟨t0 :: (pre ++ pre2), fun p' hp' rest' ht => ⟨l, pre2 ++ rest', ?_, ?_⟩⟩
  · have := (primary_lower hp p' (h4 (pre2 ++ rest') (by rw [h5]; exact ht.append pre2))).2
    simpa using this
  · refine extends_lower ?_ (h6 rest' ht)
    rcases (primary_lower hp p' h1).1 with rfl | rfl
    · simp only [levelAfter]; rw [if_neg (by omega)]; exact hp'
    · simp [levelAfter]

/-- In parentheses everything can be read at any level. -/
theorem paren_lowered {p q : Nat} (hq : q ≠ 255) (rest : List Token) (e : Expr F) (pre : List Token)
    (h : ∀ r, Whole 0 (pre ++ rpTok :: r) e (rpTok :: r)) : Lowered p q rest (.paren e) := by
  refine ⟨lpTok :: (pre ++ [rpTok]), fun p' _ rest' _ => ⟨_, rest', ?_, .nil _ _ _⟩⟩
  simp only [levelAfter, if_neg hq, List.cons_append, List.append_assoc, List.nil_append]
  exact .paren _ lpTok rpTok e _ _ rfl rfl (h rest')

theorem shuts_rpTok (r : List Token) : Shuts (rpTok :: r) := shuts_rp rfl r

mutual
theorem primary_enclosed {p q : Nat} (hp : p < 255) {ts us : List Token} {l : Expr F} (h : Primary p ts l q us) : Lowered p q us (enclosed l) := by
  have keep : ∀ {e : Expr F}, enclosed e = e → Primary p ts e q us → Lowered p q us (enclosed e) := fun he h => by
    rw [he]; exact pr_lowered hp ⟨_, _, h, .nil _ _ _⟩
  match h with
  | .unary _ t e ts r hk hw =>
    obtain ⟨pre, ih⟩ := whole_enclosed (by omega) hw
    refine paren_lowered (by omega) _ _ (t :: pre) fun r => ?_
    exact .mk 0 0 _ _ _ _ _ (.unary _ t _ _ _ hk (ih _ (.inr (shuts_rpTok r)))) (.nil _ _ _) ((shuts_rpTok r).ends 0)
  | .ident _ t r hk => exact keep rfl (.ident _ t r hk)
  | .int _ t i r hk hi => exact keep rfl (.int _ t i r hk hi)
  | .float _ t i r hk hi => exact keep rfl (.float _ t i r hk hi)
  | .bool _ t b r hk hb => exact keep rfl (.bool _ t b r hk hb)
  | .str _ t r hk => exact keep rfl (.str _ t r hk)
  | .letE _ l n a e ts r hl hn ha hw => exact keep rfl (.letE _ l n a e ts r hl hn ha hw)
  | .paren _ l d e ts r hl hd hw => exact keep rfl (.paren _ l d e ts r hl hd hw)
  | .ifThen _ i l c b d e es ts us r hi hl hc hb hd hw hs hnn => exact keep rfl (.ifThen _ i l c b d e es ts us r hi hl hc hb hd hw hs hnn)
  | .ifElse _ i l c b d el b' d' e es es' ts us vs r hi hl hc hb hd hel hb' hd' hw hs hs' =>
    exact keep rfl (.ifElse _ i l c b d el b' d' e es es' ts us vs r hi hl hc hb hd hel hb' hd' hw hs hs')
  | .arr _ l c es ts r hl hc hi => exact keep rfl (.arr _ l c es ts r hl hc hi)
  | .map _ l c ps ts r hl hc hi => exact keep rfl (.map _ l c ps ts r hl hc hi)
theorem extends_enclosed {p q : Nat} (hp : p < 255) (hpq : q = p ∨ q = 255) {ts us rest : List Token} {l e : Expr F} (h : Extends q l us e rest)
    (h0 : PR p q ts l us) (hl : Lowered p q us (enclosed l)) : Lowered p q rest (enclosed e) := by
  match h with
  | .nil _ _ _ => exact hl
  | .binary _ op l r e ts us rest h1 h2 h3 =>
    have hop : tableLevel op.kind < 14 := by cases op.kind <;> simp [tableLevel]
    have hq : q ≠ 255 := by omega
    obtain ⟨pre, hl⟩ := hl
    obtain ⟨pre2, ih⟩ := whole_enclosed (by omega) h2
    have step : Lowered p q us (enclosed (.binary op l r)) := by
      refine paren_lowered hq _ _ (pre ++ op :: pre2) fun r' => ?_
      obtain ⟨l0, us0, g1, g2⟩ := hl 0 (by omega) (op :: (pre2 ++ rpTok :: r')) (.inl (alikeKind_cons _ _ _))
      simp only [levelAfter, if_neg hq] at g1 g2
      refine .mk 0 0 l0 _ _ us0 _ (by simpa using g1) (ext_trans g2 ?_) ((shuts_rpTok r').ends 0)
      exact .binary _ op _ _ _ _ _ _ (by omega) (ih _ (.inr (shuts_rpTok r'))) (.nil _ _ _)
    obtain ⟨l0, us0, g1, g2⟩ := h0
    exact extends_enclosed hp hpq h3 ⟨l0, us0, g1, ext_trans g2 (.binary _ op l r _ ts us us h1 h2 (.nil _ _ _))⟩ step
  | .call _ b c f es e ts us rest h1 h2 h3 h4 h5 =>
    have hq : q ≠ 255 := by omega
    obtain ⟨pre, hl⟩ := hl
    obtain ⟨pre2, ih⟩ := items_enclosed (.inl rfl) h4
    have step : Lowered p q us (enclosed (.call f es)) := by
      refine ⟨pre ++ b :: (pre2 ++ [c]), fun p' hp' rest' _ => ?_⟩
      obtain ⟨l0, us0, g1, g2⟩ := hl p' hp' (b :: (pre2 ++ c :: rest')) (.inl (alikeKind_cons _ _ _))
      simp only [levelAfter, if_neg hq] at g1 g2 ⊢
      refine ⟨l0, us0, by simpa using g1, ext_trans g2 ?_⟩
      exact .call _ b c f _ _ _ _ _ (by omega) h2 h3 (ih c rest' h3) (.nil _ _ _)
    obtain ⟨l0, us0, g1, g2⟩ := h0
    exact extends_enclosed hp hpq h5 ⟨l0, us0, g1, ext_trans g2 (.call _ b c f es _ ts us us h1 h2 h3 h4 (.nil _ _ _))⟩ step
  | .index _ b c l i e ts us rest h1 h2 h3 h4 h5 =>
    have hq : q ≠ 255 := by omega
    obtain ⟨pre, hl⟩ := hl
    obtain ⟨pre2, ih⟩ := whole_enclosed (by omega) h4
    have step : Lowered p q us (enclosed (.index l i)) := by
      refine paren_lowered hq _ _ (pre ++ b :: (pre2 ++ [c])) fun r' => ?_
      obtain ⟨l0, us0, g1, g2⟩ := hl 0 (by omega) (b :: (pre2 ++ c :: rpTok :: r')) (.inl (alikeKind_cons _ _ _))
      simp only [levelAfter, if_neg hq] at g1 g2
      refine .mk 0 0 l0 _ _ us0 _ (by simpa using g1) (ext_trans g2 ?_) ((shuts_rpTok r').ends 0)
      exact .index _ b c _ _ _ _ _ _ (by omega) h2 h3 (ih _ (.inl (alikeKind_cons _ _ _))) (.nil _ _ _)
    obtain ⟨l0, us0, g1, g2⟩ := h0
    exact extends_enclosed hp hpq h5 ⟨l0, us0, g1, ext_trans g2 (.index _ b c l i _ ts us us h1 h2 h3 h4 (.nil _ _ _))⟩ step
  | .field _ d n l e ts rest h1 h2 h3 h4 =>
    obtain ⟨l0, us0, g1, g2⟩ := h0
    have pr : PR p q _ (.field l n.literal) ts := ⟨l0, us0, g1, ext_trans g2 (.field _ d n l _ ts ts h1 h2 h3 (.nil _ _ _))⟩
    exact extends_enclosed hp hpq h4 pr (pr_lowered hp pr)
theorem whole_enclosed {p : Nat} (hp : p < 255) {ts rest : List Token} {e : Expr F} (h : Whole p ts e rest) :
    ∃ pre, ∀ rest', Trails rest rest' → Whole p (pre ++ rest') (enclosed e) rest' := by
  match h with
  | .mk _ q l _ _ us _ h1 h2 h3 =>
    have hpq := (primary_lower hp p h1).1
    obtain ⟨pre, ih⟩ := extends_enclosed hp hpq h2 ⟨l, us, h1, .nil _ _ _⟩ (primary_enclosed hp h1)
    refine ⟨pre, fun rest' ht => ?_⟩
    obtain ⟨l0, us0, g1, g2⟩ := ih p (Nat.le_refl _) rest' ht
    have hq : levelAfter q p = q := by
      simp only [levelAfter]
      by_cases hq : q = 255
      · rw [if_pos hq, hq]
      · rw [if_neg hq]; omega
    rw [hq] at g1 g2
    exact .mk _ _ _ _ _ _ _ g1 g2 (ht.ends h3)
theorem items_enclosed {k : Kind} (hk : Closing k) {ts rest : List Token} {es : List (Expr F)} (h : Items k ts es rest) :
    ∃ pre, ∀ c r', c.kind = k → Items k (pre ++ c :: r') (enclosedList es) (c :: r') := by
  match h with
  | .nil _ c r hc => exact ⟨[], fun c' r' hc' => .nil _ c' r' hc'⟩
  | .last _ c e _ r hc hw =>
    obtain ⟨pre, ih⟩ := whole_enclosed (by omega) hw
    exact ⟨pre, fun c' r' hc' => .last _ c' _ _ r' hc' (ih _ (.inl ⟨c, c', r, r', rfl, rfl, by rw [hc, hc']⟩))⟩
  | .cons _ c e es _ us _ hc hw hi =>
    obtain ⟨pre, ih⟩ := whole_enclosed (by omega) hw
    obtain ⟨pre2, ih2⟩ := items_enclosed hk hi
    refine ⟨pre ++ c :: pre2, fun c' r' hc' => ?_⟩
    have := Items.cons k c _ _ _ _ _ hc (ih (c :: (pre2 ++ c' :: r')) (.inl (alikeKind_cons _ _ _))) (ih2 c' r' hc')
    simpa [enclosedList] using this
end

end Am
