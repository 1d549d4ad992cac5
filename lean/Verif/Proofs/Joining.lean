import Verif.Proofs.AcceptsConverse
/-! # The items of a text can be followed by those of another text -/
set_option linter.unusedSimpArgs false
set_option linter.unusedSectionVars false
namespace Am
open Spec
variable {F : Type} [Rt F]

/-- `T` starts with a token that does not bind to what stands before it. -/
def Fresh (T : List Token) : Prop := ∃ t r, T = t :: r ∧ level t.kind = 0 ∧ t.kind ≠ .Else ∧ t.kind ≠ .Semi

theorem split_tail {t z : Token} {r a : List Token} (h : t :: r = a ++ [z]) (ht : t.kind ≠ .Eof) (hz : z.kind = .Eof) :
    ∃ a', a = t :: a' ∧ r = a' ++ [z] := by
  cases a with
  | nil => injection h with h1 h2; subst h1; exact absurd hz ht
  | cons x a => injection h with h1 h2; subst h1; exact ⟨a, rfl, h2⟩

theorem ends_tail {q : Nat} {a T : List Token} {z : Token} (h : Ends q (a ++ [z])) (hT : Fresh T) : Ends q (a ++ T) := by
  obtain ⟨t, r, rfl, h0, _⟩ := hT
  cases a with
  | nil => exact ⟨t, r, rfl, by omega⟩
  | cons x a =>
    obtain ⟨y, s, h1, h2⟩ := h
    injection h1 with h1 h3
    subst h1
    exact ⟨x, a ++ t :: r, rfl, h2⟩

theorem notNext_tail {k : Kind} {a T : List Token} {z : Token} (hk : k = .Else ∨ k = .Ls) (h : NotNext k (a ++ [z])) (hT : Fresh T) :
    NotNext k (a ++ T) := by
  obtain ⟨t, r, rfl, h0, h1, _⟩ := hT
  cases a with
  | nil =>
    refine ⟨t, r, rfl, ?_⟩
    rcases hk with rfl | rfl
    · exact h1
    · intro h; rw [h] at h0; cases h0
  | cons x a =>
    obtain ⟨y, s, h1, h2⟩ := h
    injection h1 with h1 h3
    subst h1
    exact ⟨x, a ++ t :: r, rfl, h2⟩

theorem dropSemi_tail {a T : List Token} {z : Token} (hz : z.kind = .Eof) (hT : Fresh T) :
    ∃ b, dropSemi (a ++ [z]) = b ++ [z] ∧ dropSemi (a ++ T) = b ++ T := by
  obtain ⟨t, r, rfl, _, _, h2⟩ := hT
  cases a with
  | nil => exact ⟨[], by simp [dropSemi, hz], by simp [dropSemi, h2]⟩
  | cons x a =>
    by_cases hx : x.kind = .Semi
    · exact ⟨a, by simp [dropSemi, hx], by simp [dropSemi, hx]⟩
    · exact ⟨x :: a, by simp [dropSemi, hx], by simp [dropSemi, hx]⟩

theorem op_ne_eof {q : Nat} {k : Kind} (h : q < tableLevel k) : k ≠ .Eof := by
  rintro rfl
  simp [tableLevel] at h

mutual
theorem primary_tail {z : Token} {T : List Token} (hz : z.kind = .Eof) (hT : Fresh T) {p q : Nat} {ts rest : List Token} {e : Expr F}
    (h : Primary p ts e q rest) : ∀ a, ts = a ++ [z] → ∃ b, rest = b ++ [z] ∧ Primary p (a ++ T) e q (b ++ T) := by
  match h with
  | .ident _ t r hk =>
    intro a ha
    obtain ⟨a, rfl, rfl⟩ := split_tail ha (by simp [hk]) hz
    exact ⟨a, rfl, .ident _ _ _ hk⟩
  | .int _ t i r hk hi =>
    intro a ha
    obtain ⟨a, rfl, rfl⟩ := split_tail ha (by simp [hk]) hz
    exact ⟨a, rfl, .int _ _ _ _ hk hi⟩
  | .float _ t i r hk hi =>
    intro a ha
    obtain ⟨a, rfl, rfl⟩ := split_tail ha (by simp [hk]) hz
    exact ⟨a, rfl, .float _ _ _ _ hk hi⟩
  | .bool _ t b r hk hb =>
    intro a ha
    obtain ⟨a, rfl, rfl⟩ := split_tail ha (by rcases hk with hk | hk <;> simp [hk]) hz
    exact ⟨a, rfl, .bool _ _ _ _ hk hb⟩
  | .str _ t r hk =>
    intro a ha
    obtain ⟨a, rfl, rfl⟩ := split_tail ha (by simp [hk]) hz
    exact ⟨a, rfl, .str _ _ _ hk⟩
  | .letE _ l n s e ts r hl hn hs hw =>
    have ih1 := whole_tail hz hT hw
    intro a ha
    obtain ⟨a, rfl, ha'⟩ := split_tail ha (by simp [hl]) hz
    obtain ⟨a, rfl, ha''⟩ := split_tail ha' (by simp [hn]) hz
    obtain ⟨a, rfl, ha'''⟩ := split_tail ha'' (by simp [hs]) hz
    obtain ⟨b, rfl, hb⟩ := ih1 a ha'''
    obtain ⟨c, h1, h2⟩ := dropSemi_tail (a := b) hz hT
    refine ⟨c, h1, ?_⟩
    have := Primary.letE p l n s e _ _ hl hn hs hb
    rw [h2] at this
    exact this
  | .unary _ t e ts r hk hw =>
    have ih1 := whole_tail hz hT hw
    intro a ha
    obtain ⟨a, rfl, ha'⟩ := split_tail ha (by rcases hk with hk | hk <;> simp [hk]) hz
    obtain ⟨b, rfl, hb⟩ := ih1 a ha'
    exact ⟨b, rfl, .unary _ _ _ _ _ hk hb⟩
  | .paren _ l c e ts r hl hc hw =>
    have ih1 := whole_tail hz hT hw
    intro a ha
    obtain ⟨a, rfl, ha'⟩ := split_tail ha (by simp [hl]) hz
    obtain ⟨b, h1, hb⟩ := ih1 a ha'
    obtain ⟨b, rfl, rfl⟩ := split_tail h1 (by simp [hc]) hz
    exact ⟨b, rfl, .paren _ _ _ _ _ _ hl hc hb⟩
  | .ifThen _ i l c b d e es ts us r hi hl hc hb hd hw hs hnn =>
    have ih1 := whole_tail hz hT hw
    have ih2 := stmts_tail hz hT hs
    intro a ha
    obtain ⟨a, rfl, ha'⟩ := split_tail ha (by simp [hi]) hz
    obtain ⟨a, rfl, ha''⟩ := split_tail ha' (by simp [hl]) hz
    obtain ⟨x, h1, hx⟩ := ih1 a ha''
    obtain ⟨x, rfl, h1'⟩ := split_tail h1 (by simp [hc]) hz
    obtain ⟨x, rfl, h1''⟩ := split_tail h1' (by simp [hb]) hz
    obtain ⟨y, h2, hy⟩ := ih2 x h1''
    obtain ⟨y, rfl, rfl⟩ := split_tail h2 (by simp [hd]) hz
    exact ⟨y, rfl, .ifThen _ _ _ _ _ _ _ _ _ _ _ hi hl hc hb hd hx hy (notNext_tail (.inl rfl) hnn hT)⟩
  | .ifElse _ i l c b d el b' d' e es es' ts us vs r hi hl hc hb hd hel hb' hd' hw hs hs' =>
    have ih1 := whole_tail hz hT hw
    have ih2 := stmts_tail hz hT hs
    have ih3 := stmts_tail hz hT hs'
    intro a ha
    obtain ⟨a, rfl, ha'⟩ := split_tail ha (by simp [hi]) hz
    obtain ⟨a, rfl, ha''⟩ := split_tail ha' (by simp [hl]) hz
    obtain ⟨x, h1, hx⟩ := ih1 a ha''
    obtain ⟨x, rfl, h1'⟩ := split_tail h1 (by simp [hc]) hz
    obtain ⟨x, rfl, h1''⟩ := split_tail h1' (by simp [hb]) hz
    obtain ⟨y, h2, hy⟩ := ih2 x h1''
    obtain ⟨y, rfl, h2'⟩ := split_tail h2 (by simp [hd]) hz
    obtain ⟨y, rfl, h2''⟩ := split_tail h2' (by simp [hel]) hz
    obtain ⟨y, rfl, h2'''⟩ := split_tail h2'' (by simp [hb']) hz
    obtain ⟨w, h3, hw'⟩ := ih3 y h2'''
    obtain ⟨w, rfl, rfl⟩ := split_tail h3 (by simp [hd']) hz
    exact ⟨w, rfl, .ifElse _ _ _ _ _ _ _ _ _ _ _ _ _ _ _ _ hi hl hc hb hd hel hb' hd' hx hy hw'⟩
  | .arr _ l c es ts r hl hc hi =>
    have ih1 := items_tail hz hT (by simp) hi
    intro a ha
    obtain ⟨a, rfl, ha'⟩ := split_tail ha (by simp [hl]) hz
    obtain ⟨b, h1, hb⟩ := ih1 a ha'
    obtain ⟨b, rfl, rfl⟩ := split_tail h1 (by simp [hc]) hz
    exact ⟨b, rfl, .arr _ _ _ _ _ _ hl hc hb⟩
  | .map _ l c ps ts r hl hc hi =>
    have ih1 := pairs_tail hz hT hi
    intro a ha
    obtain ⟨a, rfl, ha'⟩ := split_tail ha (by simp [hl]) hz
    obtain ⟨b, h1, hb⟩ := ih1 a ha'
    obtain ⟨b, rfl, rfl⟩ := split_tail h1 (by simp [hc]) hz
    exact ⟨b, rfl, .map _ _ _ _ _ _ hl hc hb⟩
theorem extends_tail {z : Token} {T : List Token} (hz : z.kind = .Eof) (hT : Fresh T) {q : Nat} {ts rest : List Token} {l e : Expr F}
    (h : Extends q l ts e rest) : ∀ a, ts = a ++ [z] → ∃ b, rest = b ++ [z] ∧ Extends q l (a ++ T) e (b ++ T) := by
  match h with
  | .nil _ _ _ => exact fun a ha => ⟨a, ha, .nil _ _ _⟩
  | .binary _ op _ r _ ts us _ hq hw hx =>
    have ih1 := whole_tail hz hT hw
    have ih2 := extends_tail hz hT hx
    intro a ha
    obtain ⟨a, rfl, ha'⟩ := split_tail ha (op_ne_eof hq) hz
    obtain ⟨b, h1, hb⟩ := ih1 a ha'
    obtain ⟨c, h2, hc⟩ := ih2 b h1
    exact ⟨c, h2, .binary _ _ _ _ _ _ _ _ hq hb hc⟩
  | .call _ o c f es _ ts us _ hq ho hc hi hx =>
    have ih1 := items_tail hz hT (by simp) hi
    have ih2 := extends_tail hz hT hx
    intro a ha
    obtain ⟨a, rfl, ha'⟩ := split_tail ha (by simp [ho]) hz
    obtain ⟨b, h1, hb⟩ := ih1 a ha'
    obtain ⟨b, rfl, h1'⟩ := split_tail h1 (by simp [hc]) hz
    obtain ⟨d, h2, hd⟩ := ih2 b h1'
    exact ⟨d, h2, .call _ _ _ _ _ _ _ _ _ hq ho hc hb hd⟩
  | .index _ o c _ i _ ts us _ hq ho hc hi hx =>
    have ih1 := whole_tail hz hT hi
    have ih2 := extends_tail hz hT hx
    intro a ha
    obtain ⟨a, rfl, ha'⟩ := split_tail ha (by simp [ho]) hz
    obtain ⟨b, h1, hb⟩ := ih1 a ha'
    obtain ⟨b, rfl, h1'⟩ := split_tail h1 (by simp [hc]) hz
    obtain ⟨d, h2, hd⟩ := ih2 b h1'
    exact ⟨d, h2, .index _ _ _ _ _ _ _ _ _ hq ho hc hb hd⟩
  | .field _ o n _ _ ts _ hq ho hn hx =>
    have ih1 := extends_tail hz hT hx
    intro a ha
    obtain ⟨a, rfl, ha'⟩ := split_tail ha (by simp [ho]) hz
    obtain ⟨a, rfl, ha''⟩ := split_tail ha' (by simp [hn]) hz
    obtain ⟨d, h2, hd⟩ := ih1 a ha''
    exact ⟨d, h2, .field _ _ _ _ _ _ _ hq ho hn hd⟩
theorem whole_tail {z : Token} {T : List Token} (hz : z.kind = .Eof) (hT : Fresh T) {p : Nat} {ts rest : List Token} {e : Expr F}
    (h : Whole p ts e rest) : ∀ a, ts = a ++ [z] → ∃ b, rest = b ++ [z] ∧ Whole p (a ++ T) e (b ++ T) := by
  match h with
  | .mk _ q l _ _ us _ hp hx he =>
    have ih1 := primary_tail hz hT hp
    have ih2 := extends_tail hz hT hx
    intro a ha
    obtain ⟨b, h1, hb⟩ := ih1 a ha
    obtain ⟨c, rfl, hc⟩ := ih2 b h1
    exact ⟨c, rfl, .mk _ _ _ _ _ _ _ hb hc (ends_tail he hT)⟩
theorem items_tail {z : Token} {T : List Token} (hz : z.kind = .Eof) (hT : Fresh T) {k : Kind} (hk : k ≠ .Eof) {ts rest : List Token} {es : List (Expr F)}
    (h : Items k ts es rest) : ∀ a, ts = a ++ [z] → ∃ b, rest = b ++ [z] ∧ Items k (a ++ T) es (b ++ T) := by
  match h with
  | .nil _ c r hc =>
    intro a ha
    obtain ⟨a, rfl, rfl⟩ := split_tail ha (by rw [hc]; exact hk) hz
    exact ⟨c :: a, rfl, .nil _ _ _ hc⟩
  | .last _ c e ts r hc hw =>
    have ih1 := whole_tail hz hT hw
    intro a ha
    obtain ⟨b, h1, hb⟩ := ih1 a ha
    obtain ⟨b, rfl, rfl⟩ := split_tail h1 (by rw [hc]; exact hk) hz
    exact ⟨c :: b, rfl, .last _ _ _ _ _ hc hb⟩
  | .cons _ c e es ts us _ hc hw hi =>
    have ih1 := whole_tail hz hT hw
    have ih2 := items_tail hz hT hk hi
    intro a ha
    obtain ⟨b, h1, hb⟩ := ih1 a ha
    obtain ⟨b, rfl, h1'⟩ := split_tail h1 (by simp [hc]) hz
    obtain ⟨d, h2, hd⟩ := ih2 b h1'
    exact ⟨d, h2, .cons _ _ _ _ _ _ _ hc hb hd⟩
theorem pairs_tail {z : Token} {T : List Token} (hz : z.kind = .Eof) (hT : Fresh T) {ts rest : List Token} {ps : List (Expr F × Expr F)}
    (h : Pairs ts ps rest) : ∀ a, ts = a ++ [z] → ∃ b, rest = b ++ [z] ∧ Pairs (a ++ T) ps (b ++ T) := by
  match h with
  | .nil c r hc =>
    intro a ha
    obtain ⟨a, rfl, rfl⟩ := split_tail ha (by simp [hc]) hz
    exact ⟨c :: a, rfl, .nil _ _ hc⟩
  | .last m c k v ts us r hm hc hw hw' =>
    have ih1 := whole_tail hz hT hw
    have ih2 := whole_tail hz hT hw'
    intro a ha
    obtain ⟨b, h1, hb⟩ := ih1 a ha
    obtain ⟨b, rfl, h1'⟩ := split_tail h1 (by simp [hm]) hz
    obtain ⟨d, h2, hd⟩ := ih2 b h1'
    obtain ⟨d, rfl, rfl⟩ := split_tail h2 (by simp [hc]) hz
    exact ⟨c :: d, rfl, .last _ _ _ _ _ _ _ hm hc hb hd⟩
  | .cons m c k v ps ts us vs _ hm hc hw hw' hp =>
    have ih1 := whole_tail hz hT hw
    have ih2 := whole_tail hz hT hw'
    have ih3 := pairs_tail hz hT hp
    intro a ha
    obtain ⟨b, h1, hb⟩ := ih1 a ha
    obtain ⟨b, rfl, h1'⟩ := split_tail h1 (by simp [hm]) hz
    obtain ⟨d, h2, hd⟩ := ih2 b h1'
    obtain ⟨d, rfl, h2'⟩ := split_tail h2 (by simp [hc]) hz
    obtain ⟨f, h3, hf⟩ := ih3 d h2'
    exact ⟨f, h3, .cons _ _ _ _ _ _ _ _ _ hm hc hb hd hf⟩
theorem stmts_tail {z : Token} {T : List Token} (hz : z.kind = .Eof) (hT : Fresh T) {ts rest : List Token} {es : List (Expr F)}
    (h : Stmts ts es rest) : ∀ a, ts = a ++ [z] → ∃ b, rest = b ++ [z] ∧ Stmts (a ++ T) es (b ++ T) := by
  match h with
  | .nil c r hc =>
    intro a ha
    obtain ⟨a, rfl, rfl⟩ := split_tail ha (by simp [hc]) hz
    exact ⟨c :: a, rfl, .nil _ _ hc⟩
  | .cons e es ts us _ hw hs =>
    have ih1 := whole_tail hz hT hw
    have ih2 := stmts_tail hz hT hs
    intro a ha
    obtain ⟨b, rfl, hb⟩ := ih1 a ha
    obtain ⟨c, h1, h2⟩ := dropSemi_tail (a := b) hz hT
    obtain ⟨d, h3, hd⟩ := ih2 c h1
    refine ⟨d, h3, .cons _ _ _ _ _ hb ?_⟩
    rw [h2]
    exact hd
end

theorem oneItem_tail {z : Token} {T : List Token} (hz : z.kind = .Eof) (hT : Fresh T) {ts rest : List Token} {i : Item F}
    (h : OneItem ts i rest) (a : List Token) (ha : ts = a ++ [z]) : ∃ b, rest = b ++ [z] ∧ OneItem (a ++ T) i (b ++ T) := by
  match h with
  | .expr e _ _ hw =>
    obtain ⟨b, h1, hb⟩ := whole_tail hz hT hw a ha
    exact ⟨b, h1, .expr _ _ _ hb⟩
  | .request q n m r hq hn hm hl =>
    obtain ⟨a, rfl, ha'⟩ := split_tail ha (by simp [hq]) hz
    obtain ⟨a, rfl, ha''⟩ := split_tail ha' (by simp [hn]) hz
    obtain ⟨a, rfl, rfl⟩ := split_tail ha'' (by simp [hm]) hz
    exact ⟨a, rfl, .request _ _ _ _ hq hn hm (notNext_tail (.inr rfl) hl hT)⟩
  | .asserts q n m o c es ts r hq hn hm ho hc hi =>
    obtain ⟨a, rfl, ha'⟩ := split_tail ha (by simp [hq]) hz
    obtain ⟨a, rfl, ha''⟩ := split_tail ha' (by simp [hn]) hz
    obtain ⟨a, rfl, ha'''⟩ := split_tail ha'' (by simp [hm]) hz
    obtain ⟨a, rfl, ha''''⟩ := split_tail ha''' (by simp [ho]) hz
    obtain ⟨b, h1, hb⟩ := items_tail hz hT (by simp) hi a ha''''
    obtain ⟨b, rfl, rfl⟩ := split_tail h1 (by simp [hc]) hz
    exact ⟨b, rfl, .asserts _ _ _ _ _ _ _ _ hq hn hm ho hc hb⟩
  | .test q n o c es ts r hq hn ho hc hs =>
    obtain ⟨a, rfl, ha'⟩ := split_tail ha (by simp [hq]) hz
    obtain ⟨a, rfl, ha''⟩ := split_tail ha' (by simp [hn]) hz
    obtain ⟨a, rfl, ha'''⟩ := split_tail ha'' (by simp [ho]) hz
    obtain ⟨b, h1, hb⟩ := stmts_tail hz hT hs a ha'''
    obtain ⟨b, rfl, rfl⟩ := split_tail h1 (by simp [hc]) hz
    exact ⟨b, rfl, .test _ _ _ _ _ _ _ hq hn ho hc hb⟩

theorem program_tail {z : Token} {T : List Token} (hz : z.kind = .Eof) (hT : Fresh T) {js : List (Item F)} (hj : Program T js) {ts : List Token}
    {is : List (Item F)} (h : Program ts is) : ∀ a, ts = a ++ [z] → Program (a ++ T) (is ++ js) := by
  induction h with
  | nil t ht =>
    intro a ha
    cases a with
    | nil => exact hj
    | cons x a => injection ha with h1 h2; cases a <;> cases h2
  | cons i is ts us h1 _ ih =>
    intro a ha
    obtain ⟨b, rfl, hb⟩ := oneItem_tail hz hT h1 a ha
    obtain ⟨c, h3, h4⟩ := dropSemi_tail (a := b) hz hT
    refine .cons _ _ _ _ hb ?_
    rw [h4]
    exact ih c h3

end Am
