import Verif.Proofs.PrintedTokens
import Verif.Spec.Accepts
/-!
# Counting tokens

What is read into a given tree has at least the tokens the tree is printed with, apart from commas and semicolons.
-/
set_option linter.unusedSimpArgs false
set_option linter.unusedSectionVars false
namespace Am
open Spec
variable {F : Type} [Rt F]

theorem fixTok_kind (k : Kind) : (fixTok k).kind = k := rfl

/-- The sum of the weights of the tokens. -/
def wt (w : Kind → Nat) : List Token → Nat
  | [] => 0
  | t :: ts => w t.kind + wt w ts

theorem wt_append (w : Kind → Nat) (a b : List Token) : wt w (a ++ b) = wt w a + wt w b := by
  induction a with
  | nil => simp [wt]
  | cons t a ih => simp [wt, ih]; omega

/-- The sum over several lists. -/
def wtAll (w : Kind → Nat) : List (List Token) → Nat
  | [] => 0
  | l :: ls => wt w l + wtAll w ls

theorem wt_join {w : Kind → Nat} {sep : Token} (h : w sep.kind = 0) : ∀ ls, wt w (joinToks sep ls) = wtAll w ls
  | [] => rfl
  | [x] => by simp [joinToks, wtAll]
  | x :: y :: l => by
    have := wt_join h (y :: l)
    simp only [joinToks, wtAll, wt_append, wt, h] at this ⊢
    omega

/-- Weights that do not count commas and semicolons, and do not distinguish the boolean literals. -/
structure Weight (w : Kind → Nat) : Prop where
  semi : w .Semi = 0
  comma : w .Comma = 0
  bool : w .True = w .False

theorem Weight.opt {w : Kind → Nat} (hw : Weight w) {sm : List Token} (h : OptSemi sm) : wt w sm = 0 := by
  cases h with
  | none => rfl
  | some t h => simp [wt, h, hw.semi]

/-- Equal weights, or at least not more; equal if braces and `else` have no weight. -/
def Weighs (w : Kind → Nat) (a b : Nat) : Prop := a ≤ b ∧ (w .Else + w .Lb + w .Rb = 0 → b = a)

theorem Weighs.rfl {w : Kind → Nat} {a : Nat} : Weighs w a a := ⟨Nat.le_refl _, fun _ => Eq.refl _⟩

theorem Weighs.add {w : Kind → Nat} {a b c d : Nat} (h : Weighs w a b) (h' : Weighs w c d) : Weighs w (a + c) (b + d) :=
  ⟨Nat.add_le_add h.1 h'.1, fun hz => by rw [h.2 hz, h'.2 hz]⟩

theorem Weighs.of {w : Kind → Nat} {a b c d : Nat} (h : Weighs w a b) (h1 : c = a) (h2 : d = b) : Weighs w c d := by subst h1; subst h2; exact h

mutual
theorem reads_weight {w : Kind → Nat} (hw : Weight w) {e : Expr F} {ts : List Token} (h : Reads e ts) : Weighs w (wt w (toks e)) (wt w ts) := by
  match h with
  | .int t i hk _ => simp only [toks, wt, hk]; exact .rfl
  | .float t f hk _ => simp only [toks, wt, hk]; exact .rfl
  | .bool t b hk _ =>
    refine Weighs.rfl.of (a := w .True) ?_ ?_
    · cases b <;> simp [toks, wt, hw.bool]
    · rcases hk with hk | hk <;> simp [wt, hk, hw.bool]
  | .str t hk => simp only [toks, wt, hk]; exact .rfl
  | .ident t hk => simp only [toks, wt, hk]; exact .rfl
  | .arr l r es ts h1 h2 h3 =>
    have ih := readsList_weight hw h3
    refine (ih.add (Weighs.rfl (a := w .Ls + w .Rs))).of ?_ ?_
    · simp only [toks, wt, wt_append, wt_join (sep := fixTok .Comma) hw.comma, fixTok_kind]; omega
    · simp only [wt, wt_append, h1, h2]; omega
  | .map l r ps ts h1 h2 h3 =>
    have ih := readsPairs_weight hw h3
    refine (ih.add (Weighs.rfl (a := w .Lb + w .Rb))).of ?_ ?_
    · simp only [toks, wt, wt_append, wt_join (sep := fixTok .Comma) hw.comma, fixTok_kind]; omega
    · simp only [wt, wt_append, h1, h2]; omega
  | .index l r e i te ti h1 h2 h3 h4 =>
    have ih1 := reads_weight hw h3
    have ih2 := reads_weight hw h4
    refine ((ih1.add ih2).add (Weighs.rfl (a := w .Ls + w .Rs))).of ?_ ?_
    · simp only [toks, wt, wt_append, fixTok_kind]; omega
    · simp only [wt, wt_append, h1, h2]; omega
  | .field d n e te h1 h2 h3 =>
    have ih := reads_weight hw h3
    refine (ih.add (Weighs.rfl (a := w .Dot + w .Ident))).of ?_ ?_
    · simp only [toks, wt, wt_append, fixTok_kind]; omega
    · simp only [wt, wt_append, h1, h2]; omega
  | .letE l n a v tv sm h1 h2 h3 h4 h5 =>
    have ih := reads_weight hw h4
    refine (ih.add (Weighs.rfl (a := w .Let + w .Ident + w .Assign))).of ?_ ?_
    · simp only [toks, wt, wt_append, fixTok_kind]; omega
    · simp only [wt, wt_append, h1, h2, h3, hw.opt h5]; omega
  | .unary op e te _ h1 =>
    have ih := reads_weight hw h1
    refine (ih.add (Weighs.rfl (a := w op.kind))).of ?_ ?_
    · simp only [toks, wt]; omega
    · simp only [wt]; omega
  | .binary op l r tl tr _ h1 h2 =>
    have ih1 := reads_weight hw h1
    have ih2 := reads_weight hw h2
    refine ((ih1.add ih2).add (Weighs.rfl (a := w op.kind))).of ?_ ?_
    · simp only [toks, wt, wt_append]; omega
    · simp only [wt, wt_append]; omega
  | .paren l r e te h1 h2 h3 =>
    have ih := reads_weight hw h3
    refine (ih.add (Weighs.rfl (a := w .Lp + w .Rp))).of ?_ ?_
    · simp only [toks, wt, wt_append, fixTok_kind]; omega
    · simp only [wt, wt_append, h1, h2]; omega
  | .ifThen i l r c t tc tt h1 h2 h3 h4 h5 =>
    have ih1 := reads_weight hw h4
    have ih2 := readsBlock_weight hw h5
    refine ((ih1.add ih2).add (Weighs.rfl (a := w .If + w .Lp + w .Rp))).of ?_ ?_
    · simp only [toks, wt, wt_append, wt_join (sep := fixTok .Semi) hw.semi, List.isEmpty_nil, if_true, fixTok_kind]; omega
    · simp only [wt, wt_append, h1, h2, h3]; omega
  | .ifElse i l r el c t e tc tt te h1 h2 h3 h4 h5 h6 h7 =>
    have ih1 := reads_weight hw h5
    have ih2 := readsBlock_weight hw h6
    have ih3 := readsBlock_weight hw h7
    cases e with
    | nil =>
      have := ((ih1.add ih2).add (Weighs.rfl (a := w .If + w .Lp + w .Rp)))
      have e1 : wt w (toks (.ifE c t [])) = wt w (toks c) + (w .Lb + wtAll w (toksList t) + w .Rb) + (w .If + w .Lp + w .Rp) := by
        simp only [toks, wt, wt_append, wt_join (sep := fixTok .Semi) hw.semi, List.isEmpty_nil, if_true, fixTok_kind]; omega
      have e2 : wt w (i :: l :: (tc ++ r :: (tt ++ el :: te))) = wt w tc + wt w tt + (w .If + w .Lp + w .Rp) + (w .Else + wt w te) := by
        simp only [wt, wt_append, h1, h2, h3, h4]; omega
      rw [e1, e2]
      refine ⟨by have := this.1; omega, fun hz => ?_⟩
      have := this.2 hz
      have := ih3.2 hz
      simp only [toksList, wtAll] at this
      omega
    | cons a es =>
      refine (((ih1.add ih2).add ih3).add (Weighs.rfl (a := w .If + w .Lp + w .Rp + w .Else))).of ?_ ?_
      · simp only [toks, wt, wt_append, wt_join (sep := fixTok .Semi) hw.semi, List.isEmpty_cons, Bool.false_eq_true, if_false, fixTok_kind]; omega
      · simp only [wt, wt_append, h1, h2, h3, h4]; omega
  | .call f l r es ts h1 h2 h3 h4 =>
    have ih := readsList_weight hw h4
    refine (ih.add (Weighs.rfl (a := w .Ident + w .Lp + w .Rp))).of ?_ ?_
    · simp only [toks, wt, wt_append, wt_join (sep := fixTok .Comma) hw.comma, fixTok_kind]; omega
    · simp only [wt, wt_append, h1, h2, h3]; omega
theorem readsList_weight {w : Kind → Nat} (hw : Weight w) {es : List (Expr F)} {ts : List Token} (h : ReadsList es ts) :
    Weighs w (wtAll w (toksList es)) (wt w ts) := by
  match h with
  | .nil => exact .rfl
  | .last e te h1 => have ih := reads_weight hw h1; exact ih.of (by simp [toksList, wtAll]) rfl
  | .cons e es c te ts h1 h2 h3 =>
    have ih1 := reads_weight hw h2
    have ih2 := readsList_weight hw h3
    exact (ih1.add ih2).of (by simp [toksList, wtAll]) (by simp only [wt, wt_append, h1, hw.comma]; omega)
theorem readsPairs_weight {w : Kind → Nat} (hw : Weight w) {ps : List (Expr F × Expr F)} {ts : List Token} (h : ReadsPairs ps ts) :
    Weighs w (wtAll w (toksPairs ps)) (wt w ts) := by
  match h with
  | .nil => exact .rfl
  | .last k v c tk tv h1 h2 h3 =>
    have ih1 := reads_weight hw h2
    have ih2 := reads_weight hw h3
    refine ((ih1.add ih2).add (Weighs.rfl (a := w .Colon))).of ?_ ?_
    · simp only [toksPairs, wtAll, wt, wt_append, fixTok_kind]; omega
    · simp only [wt, wt_append, h1]; omega
  | .cons k v ps c m tk tv ts h1 h2 h3 h4 h5 =>
    have ih1 := reads_weight hw h3
    have ih2 := reads_weight hw h4
    have ih3 := readsPairs_weight hw h5
    refine (((ih1.add ih2).add ih3).add (Weighs.rfl (a := w .Colon))).of ?_ ?_
    · simp only [toksPairs, wtAll, wt, wt_append, fixTok_kind]; omega
    · simp only [wt, wt_append, h1, h2, hw.comma]; omega
theorem readsBlock_weight {w : Kind → Nat} (hw : Weight w) {es : List (Expr F)} {ts : List Token} (h : ReadsBlock es ts) :
    Weighs w (w .Lb + wtAll w (toksList es) + w .Rb) (wt w ts) := by
  match h with
  | .mk l r es ts h1 h2 h3 =>
    have ih := readsSeq_weight hw h3
    exact (ih.add (Weighs.rfl (a := w .Lb + w .Rb))).of (by omega) (by simp only [wt, wt_append, h1, h2]; omega)
theorem readsSeq_weight {w : Kind → Nat} (hw : Weight w) {es : List (Expr F)} {ts : List Token} (h : ReadsSeq es ts) :
    Weighs w (wtAll w (toksList es)) (wt w ts) := by
  match h with
  | .nil => exact .rfl
  | .cons e es te sm ts h1 h2 h3 =>
    have ih1 := reads_weight hw h1
    have ih2 := readsSeq_weight hw h3
    exact (ih1.add ih2).of (by simp [toksList, wtAll]) (by simp only [wt_append, hw.opt h2]; omega)
end

/-! ## The tokens of the printed text lose weight -/

/-- Points count two, floats one. -/
def dotFloat : Kind → Nat
  | .Dot => 2
  | .Float => 1
  | _ => 0

mutual
/-- Every float prints as a float literal, and no field access follows a number. -/
def Clean : Expr F → Prop
  | .int _ | .bool _ | .str _ | .ident _ => True
  | .float f => FloatPrints f
  | .arr es => CleanAll es
  | .map ps => CleanPairs ps
  | .index l i => Clean l ∧ Clean i
  | .field l _ => endsNum l = false ∧ Clean l
  | .letE _ v => Clean v
  | .unary _ r => Clean r
  | .binary _ l r => Clean l ∧ Clean r
  | .paren e => Clean e
  | .ifE c t e => Clean c ∧ CleanAll t ∧ CleanAll e
  | .call _ es => CleanAll es
termination_by structural e => e
/-- All expressions of a list. -/
def CleanAll : List (Expr F) → Prop
  | [] => True
  | e :: es => Clean e ∧ CleanAll es
termination_by structural l => l
/-- All keys and values. -/
def CleanPairs : List (Expr F × Expr F) → Prop
  | [] => True
  | (k, v) :: ps => Clean k ∧ Clean v ∧ CleanPairs ps
termination_by structural l => l
end

theorem floatPrints_tok {f : F} (h : FloatPrints f) : ftok f = ⟨.Float, Rt.fdisp f⟩ := by
  have h1 : '.' ∈ Rt.fdisp f := h.1.2.2
  simp [ftok, h1]

mutual
/-- Without these defects the printed text has the expected tokens. -/
theorem clean_toks (e : Expr F) (h : Clean e) : dtoks e = toks e := by
  match e with
  | .int _ | .bool _ | .str _ | .ident _ => rfl
  | .float f => simp only [dtoks, toks, floatPrints_tok h]
  | .arr es => simp only [dtoks, toks, cleanAll_toks es h]
  | .map ps => simp only [dtoks, toks, cleanPairs_toks ps h]
  | .index l i => simp only [dtoks, toks, clean_toks l h.1, clean_toks i h.2]
  | .field l n => simp only [dtoks, toks, clean_toks l h.2, h.1, Bool.false_eq_true, if_false]
  | .letE _ v => simp only [dtoks, toks, clean_toks v h]
  | .unary _ r => simp only [dtoks, toks, clean_toks r h]
  | .binary _ l r => simp only [dtoks, toks, clean_toks l h.1, clean_toks r h.2]
  | .paren e => simp only [dtoks, toks, clean_toks e h]
  | .ifE c t e => simp only [dtoks, toks, clean_toks c h.1, cleanAll_toks t h.2.1, cleanAll_toks e h.2.2]
  | .call _ es => simp only [dtoks, toks, cleanAll_toks es h]
termination_by structural e
theorem cleanAll_toks (es : List (Expr F)) (h : CleanAll es) : dtoksList es = toksList es := by
  match es with
  | [] => rfl
  | e :: es => simp only [dtoksList, toksList, clean_toks e h.1, cleanAll_toks es h.2]
termination_by structural es
theorem cleanPairs_toks (ps : List (Expr F × Expr F)) (h : CleanPairs ps) : dtoksPairs ps = toksPairs ps := by
  match ps with
  | [] => rfl
  | (k, v) :: ps => simp only [dtoksPairs, toksPairs, clean_toks k h.1, clean_toks v h.2.1, cleanPairs_toks ps h.2.2]
termination_by structural ps
end

theorem addDot_weight {ts : List Token} (h : ts ≠ []) : wt dotFloat (addDot ts) ≤ wt dotFloat ts + 1 := by
  obtain ⟨i, x, rfl⟩ : ∃ i x, ts = i ++ [x] := ⟨_, _, (List.dropLast_concat_getLast h).symm⟩
  rw [addDot_append (by simp)]
  simp only [wt_append, wt, addDot, List.dropLast_singleton, List.nil_append, List.getLast?_singleton, Option.toList_some, List.map_cons, List.map_nil,
    dotFloat]
  omega

mutual
theorem light (e : Expr F) (h : FloatsAll Legible e) :
    wt dotFloat (dtoks e) ≤ wt dotFloat (toks e) ∧ (wt dotFloat (dtoks e) = wt dotFloat (toks e) → Clean e) := by
  match e with
  | .int _ | .bool _ | .str _ | .ident _ => exact ⟨Nat.le_refl _, fun _ => trivial⟩
  | .float f =>
    rcases ftok_cases h with ⟨h1, h2, _⟩ | ⟨_, h2, _⟩ | ⟨_, h2⟩
    · simp only [dtoks, toks, h2]; exact ⟨Nat.le_refl _, fun _ => h1⟩
    · simp [dtoks, toks, h2, wt, dotFloat]
    · simp [dtoks, toks, h2, wt, dotFloat]
  | .arr es =>
    have ih := lightAll es h
    simp only [dtoks, toks, wt, wt_append, wt_join (w := dotFloat) (sep := fixTok .Comma) rfl]
    exact ⟨by omega, fun hq => ih.2 (by omega)⟩
  | .map ps =>
    have ih := lightPairs ps h
    simp only [dtoks, toks, wt, wt_append, wt_join (w := dotFloat) (sep := fixTok .Comma) rfl]
    exact ⟨by omega, fun hq => ih.2 (by omega)⟩
  | .index l i =>
    have ih1 := light l h.1
    have ih2 := light i h.2
    simp only [dtoks, toks, wt, wt_append]
    exact ⟨by omega, fun hq => ⟨ih1.2 (by omega), ih2.2 (by omega)⟩⟩
  | .field l n =>
    have ih := light l h
    by_cases hl : endsNum l = true
    · have := addDot_weight (dtoks_ne l)
      simp only [dtoks, toks, wt, wt_append, if_pos hl]
      have e1 : dotFloat (fixTok .Dot).kind = 2 := rfl
      exact ⟨by omega, fun hq => by omega⟩
    · simp only [dtoks, toks, wt, wt_append, if_neg hl]
      exact ⟨by omega, fun hq => ⟨by simpa using hl, ih.2 (by omega)⟩⟩
  | .letE _ v =>
    have ih := light v h
    simp only [dtoks, toks, wt]
    exact ⟨by omega, fun hq => ih.2 (by omega)⟩
  | .unary _ r =>
    have ih := light r h
    simp only [dtoks, toks, wt]
    exact ⟨by omega, fun hq => ih.2 (by omega)⟩
  | .binary _ l r =>
    have ih1 := light l h.1
    have ih2 := light r h.2
    simp only [dtoks, toks, wt, wt_append]
    exact ⟨by omega, fun hq => ⟨ih1.2 (by omega), ih2.2 (by omega)⟩⟩
  | .paren e =>
    have ih := light e h
    simp only [dtoks, toks, wt, wt_append]
    exact ⟨by omega, fun hq => ih.2 (by omega)⟩
  | .ifE c t e =>
    have ih1 := light c h.1
    have ih2 := lightAll t h.2.1
    have ih3 := lightAll e h.2.2
    cases e with
    | nil =>
      simp only [dtoks, toks, wt, wt_append, wt_join (w := dotFloat) (sep := fixTok .Semi) rfl, List.isEmpty_nil, if_true]
      exact ⟨by omega, fun hq => ⟨ih1.2 (by omega), ih2.2 (by omega), trivial⟩⟩
    | cons a es =>
      simp only [dtoks, toks, wt, wt_append, wt_join (w := dotFloat) (sep := fixTok .Semi) rfl, List.isEmpty_cons, Bool.false_eq_true, if_false]
      exact ⟨by omega, fun hq => ⟨ih1.2 (by omega), ih2.2 (by omega), ih3.2 (by omega)⟩⟩
  | .call _ es =>
    have ih := lightAll es h
    simp only [dtoks, toks, wt, wt_append, wt_join (w := dotFloat) (sep := fixTok .Comma) rfl]
    exact ⟨by omega, fun hq => ih.2 (by omega)⟩
termination_by structural e
theorem lightAll (es : List (Expr F)) (h : FloatsList Legible es) :
    wtAll dotFloat (dtoksList es) ≤ wtAll dotFloat (toksList es) ∧ (wtAll dotFloat (dtoksList es) = wtAll dotFloat (toksList es) → CleanAll es) := by
  match es with
  | [] => exact ⟨Nat.le_refl _, fun _ => trivial⟩
  | e :: es =>
    have ih1 := light e h.1
    have ih2 := lightAll es h.2
    simp only [dtoksList, toksList, wtAll]
    exact ⟨by omega, fun hq => ⟨ih1.2 (by omega), ih2.2 (by omega)⟩⟩
termination_by structural es
theorem lightPairs (ps : List (Expr F × Expr F)) (h : FloatsPairs Legible ps) :
    wtAll dotFloat (dtoksPairs ps) ≤ wtAll dotFloat (toksPairs ps) ∧ (wtAll dotFloat (dtoksPairs ps) = wtAll dotFloat (toksPairs ps) → CleanPairs ps) := by
  match ps with
  | [] => exact ⟨Nat.le_refl _, fun _ => trivial⟩
  | (k, v) :: ps =>
    have ih1 := light k h.1
    have ih2 := light v h.2.1
    have ih3 := lightPairs ps h.2.2
    simp only [dtoksPairs, toksPairs, wtAll, wt, wt_append]
    exact ⟨by omega, fun hq => ⟨ih1.2 (by omega), ih2.2 (by omega), ih3.2 (by omega)⟩⟩
termination_by structural ps
end

/-! ## What was read for an expression -/

mutual
theorem primary_reads {p q : Nat} {ts rest : List Token} {e : Expr F} (h : Primary p ts e q rest) : ∃ t, ts = t ++ rest ∧ Reads e t := by
  match h with
  | .ident _ t r hk => exact ⟨[t], rfl, .ident t hk⟩
  | .int _ t i r hk hi => exact ⟨[t], rfl, .int t i hk hi⟩
  | .float _ t f r hk hi => exact ⟨[t], rfl, .float t f hk hi⟩
  | .bool _ t b r hk hi => exact ⟨[t], rfl, .bool t b hk hi⟩
  | .str _ t r hk => exact ⟨[t], rfl, .str t hk⟩
  | .letE _ l n a e ts r h1 h2 h3 h4 =>
    obtain ⟨t, rfl, ih⟩ := whole_reads h4
    cases r with
    | nil => exact ⟨l :: n :: a :: (t ++ []), by simp [dropSemi], .letE l n a e t [] h1 h2 h3 ih .none⟩
    | cons x r =>
      by_cases hx : x.kind = .Semi
      · exact ⟨l :: n :: a :: (t ++ [x]), by simp [dropSemi, hx], .letE l n a e t [x] h1 h2 h3 ih (.some x hx)⟩
      · exact ⟨l :: n :: a :: (t ++ []), by simp [dropSemi, hx], .letE l n a e t [] h1 h2 h3 ih .none⟩
  | .unary _ o e ts r h1 h2 =>
    obtain ⟨t, rfl, ih⟩ := whole_reads h2
    exact ⟨o :: t, rfl, .unary o e t h1 ih⟩
  | .paren _ l c e ts r h1 h2 h3 =>
    obtain ⟨t, rfl, ih⟩ := whole_reads h3
    exact ⟨l :: (t ++ [c]), by simp, .paren l c e t h1 h2 ih⟩
  | .ifThen _ i l c b d e es ts us r h1 h2 h3 h4 h5 h6 h7 _ =>
    obtain ⟨t, rfl, ih⟩ := whole_reads h6
    obtain ⟨t2, rfl, ih2⟩ := stmts_reads h7
    exact ⟨i :: l :: (t ++ c :: (b :: (t2 ++ [d]))), by simp, .ifThen i l c e es t _ h1 h2 h3 ih (.mk b d es t2 h4 h5 ih2)⟩
  | .ifElse _ i l c b d el b' d' e es es' ts us vs r h1 h2 h3 h4 h5 h6 h7 h8 h9 h10 h11 =>
    obtain ⟨t, rfl, ih⟩ := whole_reads h9
    obtain ⟨t2, rfl, ih2⟩ := stmts_reads h10
    obtain ⟨t3, rfl, ih3⟩ := stmts_reads h11
    exact ⟨i :: l :: (t ++ c :: ((b :: (t2 ++ [d])) ++ el :: (b' :: (t3 ++ [d'])))), by simp,
      .ifElse i l c el e es es' t _ _ h1 h2 h3 h6 ih (.mk b d es t2 h4 h5 ih2) (.mk b' d' es' t3 h7 h8 ih3)⟩
  | .arr _ l c es ts r h1 h2 h3 =>
    obtain ⟨t, rfl, ih⟩ := items_reads h3
    exact ⟨l :: (t ++ [c]), by simp, .arr l c es t h1 h2 ih⟩
  | .map _ l c ps ts r h1 h2 h3 =>
    obtain ⟨t, rfl, ih⟩ := pairs_reads h3
    exact ⟨l :: (t ++ [c]), by simp, .map l c ps t h1 h2 ih⟩
theorem extends_reads {q : Nat} {us rest : List Token} {l e : Expr F} (h : Extends q l us e rest) :
    ∃ m, us = m ++ rest ∧ ∀ tl, Reads l tl → Reads e (tl ++ m) := by
  match h with
  | .nil _ _ _ => exact ⟨[], rfl, fun tl h => by simpa using h⟩
  | .binary _ op l r e ts us rest h1 h2 h3 =>
    obtain ⟨t, rfl, ih⟩ := whole_reads h2
    obtain ⟨m, rfl, ih2⟩ := extends_reads h3
    refine ⟨op :: (t ++ m), by simp, fun tl hl => ?_⟩
    have hb : op.kind.isBinary = true := by
      revert h1
      cases op.kind <;> simp [tableLevel, Kind.isBinary]
    have := ih2 _ (.binary op l r tl t hb hl ih)
    simpa using this
  | .call _ b c f es e ts us rest h0 h1 h2 h3 h4 =>
    obtain ⟨t, rfl, ih⟩ := items_reads h3
    obtain ⟨m, rfl, ih2⟩ := extends_reads h4
    refine ⟨b :: (t ++ c :: m), by simp, fun tl hl => ?_⟩
    generalize hx : (Expr.ident f : Expr F) = x at hl
    cases hl <;> simp at hx
    rename_i x hk
    subst hx
    have := ih2 _ (.call x b c es t hk h1 h2 ih)
    simpa using this
  | .index _ b c l i e ts us rest h0 h1 h2 h3 h4 =>
    obtain ⟨t, rfl, ih⟩ := whole_reads h3
    obtain ⟨m, rfl, ih2⟩ := extends_reads h4
    refine ⟨b :: (t ++ c :: m), by simp, fun tl hl => ?_⟩
    have := ih2 _ (.index b c l i tl t h1 h2 hl ih)
    simpa using this
  | .field _ d n l e ts rest h0 h1 h2 h3 =>
    obtain ⟨m, rfl, ih2⟩ := extends_reads h3
    refine ⟨d :: n :: m, by simp, fun tl hl => ?_⟩
    have := ih2 _ (.field d n l tl h1 h2 hl)
    simpa using this
theorem whole_reads {p : Nat} {ts rest : List Token} {e : Expr F} (h : Whole p ts e rest) : ∃ t, ts = t ++ rest ∧ Reads e t := by
  match h with
  | .mk _ q l _ _ us _ h1 h2 _ =>
    obtain ⟨t, rfl, ih⟩ := primary_reads h1
    obtain ⟨m, rfl, ih2⟩ := extends_reads h2
    exact ⟨t ++ m, by simp, ih2 t ih⟩
theorem items_reads {k : Kind} {ts rest : List Token} {es : List (Expr F)} (h : Items k ts es rest) : ∃ t, ts = t ++ rest ∧ ReadsList es t := by
  match h with
  | .nil _ c r _ => exact ⟨[], rfl, .nil⟩
  | .last _ c e ts r _ h1 =>
    obtain ⟨t, rfl, ih⟩ := whole_reads h1
    exact ⟨t, rfl, .last e t ih⟩
  | .cons _ c e es ts us rest h0 h1 h2 =>
    obtain ⟨t, rfl, ih⟩ := whole_reads h1
    obtain ⟨t2, rfl, ih2⟩ := items_reads h2
    exact ⟨t ++ c :: t2, by simp, .cons e es c t t2 h0 ih ih2⟩
theorem pairs_reads {ts rest : List Token} {ps : List (Expr F × Expr F)} (h : Pairs ts ps rest) : ∃ t, ts = t ++ rest ∧ ReadsPairs ps t := by
  match h with
  | .nil c r _ => exact ⟨[], rfl, .nil⟩
  | .last m c k v ts us r h0 _ h1 h2 =>
    obtain ⟨t, rfl, ih⟩ := whole_reads h1
    obtain ⟨t2, rfl, ih2⟩ := whole_reads h2
    exact ⟨t ++ m :: t2, by simp, .last k v m t t2 h0 ih ih2⟩
  | .cons m c k v ps ts us vs rest h0 h00 h1 h2 h3 =>
    obtain ⟨t, rfl, ih⟩ := whole_reads h1
    obtain ⟨t2, rfl, ih2⟩ := whole_reads h2
    obtain ⟨t3, rfl, ih3⟩ := pairs_reads h3
    exact ⟨t ++ m :: (t2 ++ c :: t3), by simp, .cons k v ps m c t t2 t3 h0 h00 ih ih2 ih3⟩
theorem stmts_reads {ts rest : List Token} {es : List (Expr F)} (h : Stmts ts es rest) : ∃ t, ts = t ++ rest ∧ ReadsSeq es t := by
  match h with
  | .nil c r _ => exact ⟨[], rfl, .nil⟩
  | .cons e es ts us rest h1 h2 =>
    obtain ⟨t, rfl, ih⟩ := whole_reads h1
    obtain ⟨t2, e2, ih2⟩ := stmts_reads h2
    cases us with
    | nil => exact ⟨t ++ ([] ++ t2), by simp [dropSemi] at e2; simp [e2], .cons e es t [] t2 ih .none ih2⟩
    | cons x us =>
      by_cases hx : x.kind = .Semi
      · simp only [dropSemi, if_pos hx] at e2
        exact ⟨t ++ ([x] ++ t2), by simp [e2], .cons e es t [x] t2 ih (.some x hx) ih2⟩
      · simp only [dropSemi, if_neg hx] at e2
        exact ⟨t ++ ([] ++ t2), by simp [e2], .cons e es t [] t2 ih .none ih2⟩
end

end Am
