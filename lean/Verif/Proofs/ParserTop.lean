import Verif.Proofs.ParserHalt
import Verif.Proofs.Maps
/-! # The whole source: items, tables, and grouping without exceptions -/
set_option linter.unusedSimpArgs false
set_option linter.unusedSectionVars false
namespace Am
open Spec
variable {F : Type} [Rt F]

/-- The effect of one top-level item on the result of the parser. -/
def addItem (src : Source F) : Item F → Source F
  | .expr e => { src with exprs := src.exprs ++ [e] }
  | .request n m as => { src with requests := amInsert n (m, as) src.requests }
  | .test n b => { src with tests := amInsert n b src.tests }

/-- The end marker is only at the end. -/
def EofLast (l : List Token) : Prop := ∀ a t b, l = a ++ t :: b → t.kind = .Eof → b = []

theorem eofLast_suffix {a l : List Token} (h : EofLast (a ++ l)) : EofLast l := by
  intro x t b hl hk
  exact h (a ++ x) t b (by rw [hl]; simp) hk

/-- All expressions in an item are grouped. -/
def ItemGrouped (X : Expr F → Prop) : Item F → Prop
  | .expr e => Grouped X e
  | .request _ _ as => GroupedAll X as
  | .test _ b => GroupedAll X b

theorem parseTop_sound {n : Nat} (k : Nat) : ∀ (src : Source F) (s : PS) (src' : Source F), EndsEof (s.cur :: s.rest) →
    EofLast (s.cur :: s.rest) → parseTop n k src s = .ok src' →
    ∃ items, ReadsSource items (s.cur :: s.rest) ∧ src' = items.foldl addItem src ∧ ∀ i ∈ items, ItemGrouped EndsInLet i := by
  induction k with
  | zero => intro src s src' _ _ h; cases h
  | succ k ih =>
    intro src s src' hE hL h
    simp only [parseTop] at h
    split at h
    · rename_i hk
      have hnil := hL [] s.cur s.rest rfl hk
      simp [Res.pure_eq] at h
      subst h
      exact ⟨[], by rw [hnil]; exact .nil _ hk, rfl, by simp⟩
    · rename_i hne
      obtain ⟨⟨src1, s1⟩, h1, h2⟩ := Res.bind_ok h
      obtain ⟨item, more, hr, hE1, hR, hitem⟩ := parseItem_sound hE hne h1
      obtain ⟨sm, hr2, hsm, hE2⟩ := skipSemi_spec s1 hE1
      obtain ⟨hE3, hl3, he3⟩ := next_len hE2
      dsimp only at h2
      have hall : s.cur :: s.rest = (s.cur :: more) ++ (sm ++ ((skipSemi s1).next.cur :: (skipSemi s1).next.rest)) := by
        rw [← he3, ← hr2]; simp [hr]
      have hL3 : EofLast ((skipSemi s1).next.cur :: (skipSemi s1).next.rest) := by
        rw [hall, ← List.append_assoc] at hL
        exact eofLast_suffix hL
      obtain ⟨items, hR2, hf, hG⟩ := ih src1 _ src' hE3 hL3 h2
      have hstep : src1 = addItem src item ∧ ItemGrouped EndsInLet item := by
        cases item with
        | expr e => exact ⟨hitem.2, hitem.1⟩
        | request a b c => exact ⟨hitem.2, hitem.1⟩
        | test a b => exact ⟨hitem.2, hitem.1⟩
      refine ⟨item :: items, ?_, ?_, ?_⟩
      · rw [hall]
        exact .cons item items (s.cur :: more) sm _ hR hsm hR2
      · rw [hf, hstep.1]; rfl
      · intro i hi
        rcases List.mem_cons.1 hi with h3 | h3
        · rw [h3]; exact hstep.2
        · exact hG i h3

theorem noAdj_append {R : Token → Token → Prop} {a b : List Token} (h : NoAdj R (a ++ b)) : NoAdj R a ∧ NoAdj R b := by
  induction a with
  | nil => exact ⟨trivial, h⟩
  | cons x a ih =>
    cases a with
    | nil =>
      refine ⟨trivial, ?_⟩
      cases b with
      | nil => trivial
      | cons y b => exact h.2
    | cons y a =>
      obtain ⟨h1, h2⟩ := h
      obtain ⟨h3, h4⟩ := ih h2
      exact ⟨⟨h1, h3⟩, h4⟩

theorem noAdj_tail {R : Token → Token → Prop} {a : Token} {b : List Token} (h : NoAdj R (a :: b)) : NoAdj R b :=
  (noAdj_append (a := [a]) h).2

theorem reads_let {n : Str} {v : Expr F} {ts : List Token} (h : Reads (.letE n v) ts) : ∃ l r, ts = l :: r ∧ l.kind = .Let := by
  cases h with
  | letE l n a v tv sm h1 _ _ _ _ => exact ⟨l, _, rfl, h1⟩

/-- Without `let` directly after an operator, only a `let` itself ends in a `let`. -/
theorem endsInLet_let : ∀ {e : Expr F} {ts : List Token}, Reads e ts → NoAdj OpLet ts → EndsInLet e → ∃ n v, e = .letE n v := by
  have key : ∀ {op : Token} {e : Expr F} {te : List Token}, isOperator op.kind = true → Reads e te → NoAdj OpLet (op :: te) →
      (∃ n v, e = .letE n v) → False := by
    intro op e te hop hR hN ⟨n, v, he⟩
    subst he
    obtain ⟨l, r, rfl, hk⟩ := reads_let hR
    exact hN.1 ⟨hop, hk⟩
  intro e
  induction e using Expr.rec (motive_2 := fun _ => True) (motive_3 := fun _ => True) (motive_4 := fun _ => True) with
  | letE n v => intro ts _ _ _; exact ⟨n, v, rfl⟩
  | unary op r ih =>
    intro ts h hN hl
    cases h with
    | unary _ _ te hop hR =>
      exact (key (by rcases hop with h | h <;> (rw [h]; rfl)) hR hN (ih hR (noAdj_tail hN) hl)).elim
  | binary op l r _ ih =>
    intro ts h hN hl
    cases h with
    | binary _ _ _ tl tr hop _ hR =>
      have h2 := (noAdj_append hN).2
      exact (key (by simp [isOperator, hop]) hR h2 (ih hR (noAdj_tail h2) hl)).elim
  | _ => first | trivial | (intro ts _ _ hl; exact hl.elim)

theorem left_ok {e : Expr F} {ts : List Token} {k : Nat} (hk : k ≤ 14) (h : Reads e ts) (hN : NoAdj OpLet ts)
    (ho : k ≤ strength e ∨ EndsInLet e) : k ≤ strength e ∨ False := by
  rcases ho with ho | ho
  · exact Or.inl ho
  · obtain ⟨n, v, rfl⟩ := endsInLet_let h hN ho
    exact Or.inl hk

mutual
/-- Grouping without exceptions when no `let` directly follows an operator. -/
theorem reads_strict {e : Expr F} {ts : List Token} (h : Reads e ts) (hN : NoAdj OpLet ts) (hG : Grouped EndsInLet e) :
    StrictlyGrouped e := by
  match h, hG with
  | .int _ _ _ _, _ => exact .int _
  | .float _ _ _ _, _ => exact .float _
  | .bool _ _ _ _, _ => exact .bool _
  | .str _ _, _ => exact .str _
  | .ident _ _, _ => exact .ident _
  | .arr _ _ _ _ _ _ hl, .arr _ hg => exact .arr _ (readsList_strict hl (noAdj_append (noAdj_tail hN)).1 hg)
  | .map _ _ _ _ _ _ hl, .map _ hg => exact .map _ (readsPairs_strict hl (noAdj_append (noAdj_tail hN)).1 hg)
  | .index _ _ _ _ _ _ _ _ h1 h2, .index _ _ g1 g2 ho =>
    have a := noAdj_append hN
    exact .index _ _ (reads_strict h1 a.1 g1) (reads_strict h2 (noAdj_append (noAdj_tail a.2)).1 g2) (left_ok (by decide) h1 a.1 ho)
  | .field _ _ _ _ _ _ h1, .field _ _ g1 ho =>
    have a := noAdj_append hN
    exact .field _ _ (reads_strict h1 a.1 g1) (left_ok (by decide) h1 a.1 ho)
  | .letE _ _ _ _ _ _ _ _ _ h1 _, .letE _ _ g1 =>
    exact .letE _ _ (reads_strict h1 (noAdj_append (noAdj_tail (noAdj_tail (noAdj_tail hN)))).1 g1)
  | .unary _ _ _ hop h1, .unary _ _ _ g1 g2 => exact .unary _ _ hop (reads_strict h1 (noAdj_tail hN) g1) g2
  | .binary op _ _ _ _ hop h1 h2, .binary _ _ _ _ g1 g2 g3 ho =>
    have a := noAdj_append hN
    exact .binary _ _ _ hop (reads_strict h1 a.1 g1) (reads_strict h2 (noAdj_tail a.2) g2) g3
      (left_ok (by have := tableLevel_le op.kind; omega) h1 a.1 ho)
  | .paren _ _ _ _ _ _ h1, .paren _ g1 => exact .paren _ (reads_strict h1 (noAdj_append (noAdj_tail hN)).1 g1)
  | .ifThen _ _ _ _ _ _ _ _ _ _ h1 h2, .ifE _ _ _ g1 g2 _ =>
    have a := noAdj_append (noAdj_tail (noAdj_tail hN))
    exact .ifE _ _ _ (reads_strict h1 a.1 g1) (readsBlock_strict h2 (noAdj_tail a.2) g2) .nil
  | .ifElse _ _ _ _ _ _ _ _ _ _ _ _ _ _ h1 h2 h3, .ifE _ _ _ g1 g2 g3 =>
    have a := noAdj_append (noAdj_tail (noAdj_tail hN))
    have b := noAdj_append (noAdj_tail a.2)
    exact .ifE _ _ _ (reads_strict h1 a.1 g1) (readsBlock_strict h2 b.1 g2) (readsBlock_strict h3 (noAdj_tail b.2) g3)
  | .call _ _ _ _ _ _ _ _ hl, .call _ _ hg =>
    exact .call _ _ (readsList_strict hl (noAdj_append (noAdj_tail (noAdj_tail hN))).1 hg)
theorem readsList_strict {es : List (Expr F)} {ts : List Token} (h : ReadsList es ts) (hN : NoAdj OpLet ts)
    (hG : GroupedAll EndsInLet es) : GroupedAll (fun _ => False) es := by
  match h, hG with
  | .nil, _ => exact .nil
  | .last _ _ h1, .cons _ _ g1 _ => exact .cons _ _ (reads_strict h1 hN g1) .nil
  | .cons _ _ _ _ _ _ h1 h2, .cons _ _ g1 g2 =>
    have a := noAdj_append hN
    exact .cons _ _ (reads_strict h1 a.1 g1) (readsList_strict h2 (noAdj_tail a.2) g2)
theorem readsPairs_strict {ps : List (Expr F × Expr F)} {ts : List Token} (h : ReadsPairs ps ts) (hN : NoAdj OpLet ts)
    (hG : GroupedPairs EndsInLet ps) : GroupedPairs (fun _ => False) ps := by
  match h, hG with
  | .nil, _ => exact .nil
  | .last _ _ _ _ _ _ h1 h2, .cons _ _ _ g1 g2 _ =>
    have a := noAdj_append hN
    exact .cons _ _ _ (reads_strict h1 a.1 g1) (reads_strict h2 (noAdj_tail a.2) g2) .nil
  | .cons _ _ _ _ _ _ _ _ _ _ h1 h2 h3, .cons _ _ _ g1 g2 g3 =>
    have a := noAdj_append hN
    have b := noAdj_append (noAdj_tail a.2)
    exact .cons _ _ _ (reads_strict h1 a.1 g1) (reads_strict h2 b.1 g2) (readsPairs_strict h3 (noAdj_tail b.2) g3)
theorem readsBlock_strict {es : List (Expr F)} {ts : List Token} (h : ReadsBlock es ts) (hN : NoAdj OpLet ts)
    (hG : GroupedAll EndsInLet es) : GroupedAll (fun _ => False) es := by
  match h with
  | .mk _ _ _ _ _ _ h1 => exact readsSeq_strict h1 (noAdj_append (noAdj_tail hN)).1 hG
theorem readsSeq_strict {es : List (Expr F)} {ts : List Token} (h : ReadsSeq es ts) (hN : NoAdj OpLet ts)
    (hG : GroupedAll EndsInLet es) : GroupedAll (fun _ => False) es := by
  match h, hG with
  | .nil, _ => exact .nil
  | .cons _ _ _ _ _ h1 _ h2, .cons _ _ g1 g2 =>
    have a := noAdj_append hN
    exact .cons _ _ (reads_strict h1 a.1 g1) (readsSeq_strict h2 (noAdj_append a.2).2 g2)
end

theorem readsItem_strict {i : Item F} {ts : List Token} (h : ReadsItem i ts) (hN : NoAdj OpLet ts) (hG : ItemGrouped EndsInLet i) :
    ItemGrouped (fun _ => False) i := by
  cases h with
  | expr _ _ h1 => exact reads_strict h1 hN hG
  | request _ _ _ _ _ _ => exact .nil
  | requestAsserts _ _ _ _ _ _ _ _ _ _ _ _ h1 =>
    exact readsList_strict h1 (noAdj_append (noAdj_tail (noAdj_tail (noAdj_tail (noAdj_tail hN))))).1 hG
  | test _ _ _ _ _ _ h1 => exact readsBlock_strict h1 (noAdj_tail (noAdj_tail hN)) hG

theorem readsSource_strict {is : List (Item F)} {ts : List Token} (h : ReadsSource is ts) (hN : NoAdj OpLet ts)
    (hG : ∀ i ∈ is, ItemGrouped EndsInLet i) : ∀ i ∈ is, ItemGrouped (fun _ => False) i := by
  induction h with
  | nil => simp
  | cons i is ti sm ts hi hsm _ ih =>
    have a := noAdj_append hN
    intro j hj
    rcases List.mem_cons.1 hj with hj | hj
    · subst hj; exact readsItem_strict hi a.1 (hG _ List.mem_cons_self)
    · exact ih (noAdj_append a.2).2 (fun x hx => hG x (List.mem_cons_of_mem _ hx)) j hj

end Am
