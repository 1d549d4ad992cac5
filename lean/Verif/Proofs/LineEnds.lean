import Verif.Spec.LineEnds
import Verif.Proofs.Lexer
import Verif.Proofs.Template
import Verif.Proofs.Laid
/-! # Line ends of source texts (C118) -/
set_option linter.unusedSimpArgs false
set_option linter.unusedSectionVars false
namespace Am
open Spec
variable {F : Type} [Rt F]

/-! ## The grammar does not look into quotes -/

section
variable (g h : Str → Str)

/-- The token with the text in its quotes changed. -/
def withText (t : Token) : Token :=
  if t.kind = .String then ⟨t.kind, g t.literal⟩ else if t.kind = .Template then ⟨t.kind, h t.literal⟩ else t

theorem withText_kind (t : Token) : (withText g h t).kind = t.kind := by
  unfold withText
  by_cases h1 : t.kind = .String
  · rw [if_pos h1]
  · rw [if_neg h1]
    by_cases h2 : t.kind = .Template
    · rw [if_pos h2]
    · rw [if_neg h2]

theorem withText_plain {t : Token} {k : Kind} (hk : t.kind = k) (h1 : k ≠ .String) (h2 : k ≠ .Template) : withText g h t = t := by
  unfold withText
  rw [hk, if_neg h1, if_neg h2]

theorem withText_string {t : Token} (hk : t.kind = .String) : withText g h t = ⟨.String, g t.literal⟩ := by
  unfold withText
  rw [hk, if_pos rfl]

theorem withText_template {t : Token} (hk : t.kind = .Template) : withText g h t = ⟨.Template, h t.literal⟩ := by
  unfold withText
  rw [hk, if_neg (by decide), if_pos rfl]

theorem withText_two {t : Token} {k k' : Kind} (hk : t.kind = k ∨ t.kind = k') (h1 : k ≠ .String ∧ k' ≠ .String) (h2 : k ≠ .Template ∧ k' ≠ .Template) :
    withText g h t = t := by
  rcases hk with hk | hk
  · exact withText_plain g h hk h1.1 h2.1
  · exact withText_plain g h hk h1.2 h2.2

theorem withText_operator {t : Token} {q : Nat} (hq : q < tableLevel t.kind) : withText g h t = t := by
  refine withText_plain g h rfl ?_ ?_ <;> intro e <;> rw [e] at hq <;> exact absurd hq (Nat.not_lt_zero q)

theorem dropSemi_withText (r : List Token) : dropSemi (r.map (withText g h)) = (dropSemi r).map (withText g h) := by
  cases r with
  | nil => rfl
  | cons t r =>
    simp only [dropSemi, List.map_cons, withText_kind]
    by_cases hs : t.kind = .Semi
    · rw [if_pos hs, if_pos hs]
    · rw [if_neg hs, if_neg hs, List.map_cons]

theorem ends_withText {p : Nat} {ts : List Token} (he : Ends p ts) : Ends p (ts.map (withText g h)) := by
  obtain ⟨t, r, e, hl⟩ := he
  exact ⟨withText g h t, r.map (withText g h), by rw [e]; rfl, by rw [withText_kind]; exact hl⟩

theorem notNext_withText {k : Kind} {ts : List Token} (he : NotNext k ts) : NotNext k (ts.map (withText g h)) := by
  obtain ⟨t, r, e, hl⟩ := he
  exact ⟨withText g h t, r.map (withText g h), by rw [e]; rfl, by rw [withText_kind]; exact hl⟩

local notation "φ" => withText g h
local macro "kind" e:term : term => `((withText_kind g h _).trans $e)

mutual
theorem primary_withText {p q : Nat} {e : Expr F} {ts r : List Token} (d : Primary p ts e q r) : Primary p (ts.map φ) (withStrings g e) q (r.map φ) :=
  match d with
  | .ident p t r k => by
    have := Primary.ident (F := F) p t (r.map φ) k
    rw [List.map_cons, withText_plain g h k (by decide) (by decide)]; exact this
  | .int p t i r k hi => by
    rw [List.map_cons, withText_plain g h k (by decide) (by decide)]; exact .int p t i (r.map φ) k hi
  | .float p t f r k hf => by
    rw [List.map_cons, withText_plain g h k (by decide) (by decide)]; exact .float p t f (r.map φ) k hf
  | .bool p t b r k hb => by
    rw [List.map_cons, withText_two g h k (by decide) (by decide)]; exact .bool p t b (r.map φ) k hb
  | .str p t r k => by
    rw [List.map_cons, withText_string g h k]; exact .str p ⟨.String, g t.literal⟩ (r.map φ) rfl
  | .letE p l n a e ts r k1 k2 k3 hw => by
    rw [← dropSemi_withText, List.map_cons, List.map_cons, List.map_cons, withText_plain g h k2 (by decide) (by decide)]
    exact .letE p _ n _ _ _ _ (kind k1) k2 (kind k3) (whole_withText hw)
  | .unary p t e ts r k hw => by
    rw [List.map_cons, withText_two g h k (by decide) (by decide)]
    exact .unary p t _ _ _ k (whole_withText hw)
  | .paren p l c e ts r k1 k2 hw => .paren p _ _ _ _ _ (kind k1) (kind k2) (whole_withText hw)
  | .ifThen p i l c b d e es ts us r k1 k2 k3 k4 k5 hw hs hn =>
    .ifThen p _ _ _ _ _ _ _ _ _ _ (kind k1) (kind k2) (kind k3) (kind k4) (kind k5) (whole_withText hw) (stmts_withText hs) (notNext_withText g h hn)
  | .ifElse p i l c b d el b' d' e es es' ts us vs r k1 k2 k3 k4 k5 k6 k7 k8 hw hs hs' =>
    .ifElse p _ _ _ _ _ _ _ _ _ _ _ _ _ _ _ (kind k1) (kind k2) (kind k3) (kind k4) (kind k5) (kind k6) (kind k7) (kind k8) (whole_withText hw) (stmts_withText hs)
      (stmts_withText hs')
  | .arr p l c es ts r k1 k2 hi => .arr p _ _ _ _ _ (kind k1) (kind k2) (items_withText hi)
  | .map p l c ps ts r k1 k2 hi => .map p _ _ _ _ _ (kind k1) (kind k2) (pairs_withText hi)
theorem extends_withText {q : Nat} {l e : Expr F} {ts r : List Token} (d : Extends q l ts e r) : Extends q (withStrings g l) (ts.map φ) (withStrings g e) (r.map φ) :=
  match d with
  | .nil q l ts => .nil q _ _
  | .binary q op l r e ts us rest hq hw hx => by
    rw [List.map_cons, withText_operator g h hq]
    exact .binary q op _ _ _ _ _ _ hq (whole_withText hw) (extends_withText hx)
  | .call q b c f es e ts us rest hq k1 k2 hi hx => .call q _ _ _ _ _ _ _ _ hq (kind k1) (kind k2) (items_withText hi) (extends_withText hx)
  | .index q b c l i e ts us rest hq k1 k2 hw hx => .index q _ _ _ _ _ _ _ _ hq (kind k1) (kind k2) (whole_withText hw) (extends_withText hx)
  | .field q d n l e ts rest hq k1 k2 hx => by
    rw [List.map_cons, List.map_cons, withText_plain g h k2 (by decide) (by decide)]
    exact .field q _ n _ _ _ _ hq (kind k1) k2 (extends_withText hx)
theorem whole_withText {p : Nat} {e : Expr F} {ts r : List Token} (d : Whole p ts e r) : Whole p (ts.map φ) (withStrings g e) (r.map φ) :=
  match d with
  | .mk p q l e ts us rest hp hx he => .mk p q _ _ _ _ _ (primary_withText hp) (extends_withText hx) (ends_withText g h he)
theorem items_withText {k : Kind} {es : List (Expr F)} {ts r : List Token} (d : Items k ts es r) : Items k (ts.map φ) (withStringsList g es) (r.map φ) :=
  match d with
  | .nil k c r k1 => .nil k _ _ (kind k1)
  | .last k c e ts r k1 hw => .last k _ _ _ _ (kind k1) (whole_withText hw)
  | .cons k c e es ts us rest k1 hw hi => .cons k _ _ _ _ _ _ (kind k1) (whole_withText hw) (items_withText hi)
theorem pairs_withText {ps : List (Expr F × Expr F)} {ts r : List Token} (d : Pairs ts ps r) : Pairs (ts.map φ) (withStringsPairs g ps) (r.map φ) :=
  match d with
  | .nil c r k1 => .nil _ _ (kind k1)
  | .last m c k v ts us r k1 k2 hk hv => .last _ _ _ _ _ _ _ (kind k1) (kind k2) (whole_withText hk) (whole_withText hv)
  | .cons m c k v ps ts us vs rest k1 k2 hk hv hp => .cons _ _ _ _ _ _ _ _ _ (kind k1) (kind k2) (whole_withText hk) (whole_withText hv) (pairs_withText hp)
theorem stmts_withText {es : List (Expr F)} {ts r : List Token} (d : Stmts ts es r) : Stmts (ts.map φ) (withStringsList g es) (r.map φ) :=
  match d with
  | .nil c r k1 => .nil _ _ (kind k1)
  | .cons e es ts us rest hw hs => .cons _ _ _ _ _ (whole_withText hw) (dropSemi_withText g h us ▸ stmts_withText hs)
end

theorem oneItem_withText {i : Item F} {ts r : List Token} (d : OneItem ts i r) : OneItem (ts.map φ) (withTexts g h i) (r.map φ) := by
  cases d with
  | expr e ts r hw => exact .expr _ _ _ (whole_withText g h hw)
  | request q n m r k1 k2 k3 hn =>
    rw [List.map_cons, List.map_cons, List.map_cons, withText_plain g h k2 (by decide) (by decide), withText_template g h k3]
    exact .request _ n ⟨.Template, h m.literal⟩ _ (kind k1) k2 rfl (notNext_withText g h hn)
  | asserts q n m b c es ts r k1 k2 k3 k4 k5 hi =>
    rw [List.map_cons, List.map_cons, List.map_cons, withText_plain g h k2 (by decide) (by decide), withText_template g h k3]
    exact .asserts _ n ⟨.Template, h m.literal⟩ _ _ _ _ _ (kind k1) k2 rfl (kind k4) (kind k5) (items_withText g h hi)
  | test q n b c es ts r k1 k2 k3 k4 hs =>
    rw [List.map_cons, List.map_cons, withText_plain g h k2 (by decide) (by decide)]
    exact .test _ n _ _ _ _ _ (kind k1) k2 (kind k3) (kind k4) (stmts_withText g h hs)

theorem program_withText {is : List (Item F)} {ts : List Token} (d : Program ts is) : Program (ts.map φ) (is.map (withTexts g h)) := by
  induction d with
  | nil t k => exact .nil _ (kind k)
  | cons i is ts us hi _ ih => exact .cons _ _ _ _ (oneItem_withText g h hi) (dropSemi_withText g h us ▸ ih)

theorem inItems_withText {k : Kind} {ts us : List Token} (d : InItems F k ts us) : InItems F k (ts.map φ) (us.map φ) := by
  induction d with
  | here ts hn => exact .here _ (notNext_withText g h hn)
  | next c e ts us vs k1 hw _ ih => exact .next _ _ _ _ _ (kind k1) (whole_withText g h hw) ih

theorem inPairs_withText {ts us : List Token} (d : InPairs F ts us) : InPairs F (ts.map φ) (us.map φ) := by
  induction d with
  | key ts hn => exact .key _ (notNext_withText g h hn)
  | value m k ts us k1 hw => exact .value _ _ _ _ (kind k1) (whole_withText g h hw)
  | next m c k v ts us vs ws k1 k2 hk hv _ ih => exact .next _ _ _ _ _ _ _ _ (kind k1) (kind k2) (whole_withText g h hk) (whole_withText g h hv) ih

theorem inStmts_withText {ts us : List Token} (d : InStmts F ts us) : InStmts F (ts.map φ) (us.map φ) := by
  induction d with
  | here ts hn => exact .here _ (notNext_withText g h hn)
  | next e ts us vs hw _ ih => exact .next _ _ _ _ (whole_withText g h hw) (dropSemi_withText g h us ▸ ih)

theorem inside_withText {p q : Nat} {ts us : List Token} (d : Inside F p ts q us) : Inside F p (ts.map φ) q (us.map φ) := by
  cases d with
  | letE l n a ts k1 k2 k3 => exact .letE _ _ _ _ _ (kind k1) (kind k2) (kind k3)
  | unary t ts k => exact .unary _ _ _ (by rw [withText_kind]; exact k)
  | paren t ts k => exact .paren _ _ _ (kind k)
  | cond i l ts k1 k2 => exact .cond _ _ _ _ (kind k1) (kind k2)
  | thenE i l c b e ts us vs k1 k2 k3 k4 hw hi =>
    exact .thenE _ _ _ _ _ _ _ _ _ (kind k1) (kind k2) (kind k3) (kind k4) (whole_withText g h hw) (inStmts_withText g h hi)
  | elseE i l c b d el b' e es ts us vs ws k1 k2 k3 k4 k5 k6 k7 hw hs hi =>
    exact .elseE _ _ _ _ _ _ _ _ _ _ _ _ _ _ (kind k1) (kind k2) (kind k3) (kind k4) (kind k5) (kind k6) (kind k7) (whole_withText g h hw) (stmts_withText g h hs)
      (inStmts_withText g h hi)
  | arr l ts us k hi => exact .arr _ _ _ _ (kind k) (inItems_withText g h hi)
  | map l ts us k hi => exact .map _ _ _ _ (kind k) (inPairs_withText g h hi)
  | right q op l e ts us vs hp hx hq =>
    have hx' := extends_withText g h hx
    rw [List.map_cons, withText_operator g h hq] at hx'
    exact .right _ _ op _ _ _ _ _ (primary_withText g h hp) hx' hq
  | arg q b l e ts us vs ws hp hx hq k hi =>
    exact .arg _ _ _ _ _ _ _ _ _ (primary_withText g h hp) (extends_withText g h hx) hq (kind k) (inItems_withText g h hi)
  | index q b l e ts us vs hp hx hq k => exact .index _ _ _ _ _ _ _ _ (primary_withText g h hp) (extends_withText g h hx) hq (kind k)

theorem loops_withText {p : Nat} {ts : List Token} (d : Loops F p ts) : Loops F p (ts.map φ) := by
  induction d with
  | stuck p q b l e ts us vs hp hx hq k => exact .stuck _ _ _ _ _ _ _ _ (primary_withText g h hp) (extends_withText g h hx) hq (kind k)
  | inside p q ts us hi _ ih => exact .inside _ _ _ _ (inside_withText g h hi) ih

theorem endless_withText {ts : List Token} (d : Endless F ts) : Endless F (ts.map φ) := by
  induction d with
  | expr ts hl => exact .expr _ (loops_withText g h hl)
  | asserts q n m b ts us k1 k2 k3 k4 hi hl => exact .asserts _ _ _ _ _ _ (kind k1) (kind k2) (kind k3) (kind k4) (inItems_withText g h hi) (loops_withText g h hl)
  | test q n b ts us k1 k2 k3 hi hl => exact .test _ _ _ _ _ (kind k1) (kind k2) (kind k3) (inStmts_withText g h hi) (loops_withText g h hl)
  | next i ts us hi _ ih => exact .next _ _ _ (oneItem_withText g h hi) (dropSemi_withText g h us ▸ ih)
end

/-! ## Expressions without changed strings -/

mutual
theorem withStrings_id : ∀ e : Expr F, withStrings id e = e
  | .int _ | .float _ | .bool _ | .str _ | .ident _ => rfl
  | .arr items => by rw [withStrings, withStringsList_id items]
  | .map pairs => by rw [withStrings, withStringsPairs_id pairs]
  | .index l i => by rw [withStrings, withStrings_id l, withStrings_id i]
  | .field l n => by rw [withStrings, withStrings_id l]
  | .letE n e => by rw [withStrings, withStrings_id e]
  | .unary t r => by rw [withStrings, withStrings_id r]
  | .binary t l r => by rw [withStrings, withStrings_id l, withStrings_id r]
  | .paren e => by rw [withStrings, withStrings_id e]
  | .ifE c t e => by rw [withStrings, withStrings_id c, withStringsList_id t, withStringsList_id e]
  | .call n args => by rw [withStrings, withStringsList_id args]
theorem withStringsList_id : ∀ l : List (Expr F), withStringsList id l = l
  | [] => rfl
  | e :: l => by rw [withStringsList, withStrings_id e, withStringsList_id l]
theorem withStringsPairs_id : ∀ l : List (Expr F × Expr F), withStringsPairs id l = l
  | [] => rfl
  | (k, e) :: l => by rw [withStringsPairs, withStrings_id k, withStrings_id e, withStringsPairs_id l]
end

/-! ## Lexing -/

theorem windows_nil : windows [] = [] := rfl

theorem windows_cons {c : Char} (h : c ≠ '\n') (cs : Str) : windows (c :: cs) = c :: windows cs := by
  unfold windows
  rw [List.flatMap_cons, if_neg h]; rfl

theorem windows_lf (cs : Str) : windows ('\n' :: cs) = '\r' :: '\n' :: windows cs := rfl

theorem windows_append (a b : Str) : windows (a ++ b) = windows a ++ windows b := List.flatMap_append

theorem windows_same {s : Str} (h : '\n' ∉ s) : windows s = s := by
  induction s with
  | nil => rfl
  | cons c s ih => rw [windows_cons (fun e => h (e ▸ List.mem_cons_self)), ih fun hm => h (List.mem_cons_of_mem _ hm)]

/-- A class of characters with both or neither of the two characters of a line end. -/
theorem windows_while {p : Char → Bool} (h : p '\r' = p '\n') (s : Str) :
    (windows s).takeWhile p = windows (s.takeWhile p) ∧ (windows s).dropWhile p = windows (s.dropWhile p) := by
  induction s with
  | nil => exact ⟨rfl, rfl⟩
  | cons c s ih =>
    by_cases hc : c = '\n'
    · subst hc
      rw [windows_lf]
      cases hp : p '\n' with
      | true =>
        rw [hp] at h
        simp only [List.takeWhile_cons, List.dropWhile_cons, h, hp, if_true, ih.1, ih.2, windows_lf, and_self]
      | false =>
        rw [hp] at h
        simp [List.takeWhile_cons, List.dropWhile_cons, h, hp, windows_lf, windows_nil]
    · rw [windows_cons hc]
      cases hp : p c with
      | true => simp only [List.takeWhile_cons, List.dropWhile_cons, hp, if_true, ih.1, ih.2, windows_cons hc, and_self]
      | false => simp [List.takeWhile_cons, List.dropWhile_cons, hp, windows_cons hc, windows_nil]

/-- The token with the line ends of Windows. -/
def windowsToken (t : Token) : Token := ⟨t.kind, windows t.literal⟩

/-- A step of the lexer and the same step on the changed text. -/
def StepWindows (a b : Token × Str) : Prop := b = (windowsToken a.1, windows a.2)

theorem stepWindows_ite {p : Prop} {_ : Decidable p} {a b a' b' : Token × Str} (h1 : p → StepWindows a a') (h2 : ¬p → StepWindows b b') :
    StepWindows (if p then a else b) (if p then a' else b') := by
  by_cases h : p
  · rw [if_pos h, if_pos h]; exact h1 h
  · rw [if_neg h, if_neg h]; exact h2 h

theorem stepWindows_one {c : Char} (hc : c ≠ '\n') (k : Kind) (cs : Str) : StepWindows (⟨k, [c]⟩, cs) (⟨k, [c]⟩, windows cs) := by
  unfold StepWindows windowsToken
  rw [windows_cons hc]; rfl

theorem windows_head (x : Char) (cs : Str) : ∃ y r, windows (x :: cs) = y :: r ∧ (x ≠ '\n' → y = x ∧ r = windows cs) ∧ (x = '\n' → y = '\r') := by
  by_cases hx : x = '\n'
  · subst hx; exact ⟨_, _, windows_lf cs, fun h => absurd rfl h, fun _ => rfl⟩
  · exact ⟨_, _, windows_cons hx cs, fun _ => ⟨rfl, rfl⟩, fun h => absurd h hx⟩

theorem stepWindows_two {c p : Char} (hc : c ≠ '\n') (hp : p ≠ '\n') (hr : p ≠ '\r') (two one : Kind) (cs : Str) :
    StepWindows (lexTwo c p two one cs) (lexTwo c p two one (windows cs)) := by
  cases cs with
  | nil => exact stepWindows_one hc one []
  | cons x cs =>
    by_cases hx : x = '\n'
    · subst hx
      have := stepWindows_one hc one ('\n' :: cs)
      rw [windows_lf] at this ⊢
      simp only [lexTwo, if_neg hp.symm, if_neg hr.symm]
      exact this
    · rw [windows_cons hx]
      by_cases e : x = p
      · simp only [lexTwo, if_pos e]
        unfold StepWindows windowsToken
        simp only [windows_cons hc, windows_cons hp, windows_nil]
      · simp only [lexTwo, if_neg e]
        have := stepWindows_one hc one (x :: cs)
        rw [windows_cons hx] at this
        exact this

theorem stepWindows_three {c p q : Char} (hc : c ≠ '\n') (hp : p ≠ '\n') (hr : p ≠ '\r') (hq : q ≠ '\n') (hs : q ≠ '\r') (k1 k2 one : Kind) (cs : Str) :
    StepWindows (lexThree c p q k1 k2 one cs) (lexThree c p q k1 k2 one (windows cs)) := by
  cases cs with
  | nil => exact stepWindows_one hc one []
  | cons x cs =>
    by_cases hx : x = '\n'
    · subst hx
      have := stepWindows_one hc one ('\n' :: cs)
      rw [windows_lf] at this ⊢
      simp only [lexThree, if_neg hp.symm, if_neg hr.symm, if_neg hq.symm, if_neg hs.symm]
      exact this
    · rw [windows_cons hx]
      by_cases e : x = p
      · simp only [lexThree, if_pos e]
        unfold StepWindows windowsToken
        simp only [windows_cons hc, windows_cons hp, windows_nil]
      · by_cases e' : x = q
        · simp only [lexThree, if_neg e, if_pos e']
          unfold StepWindows windowsToken
          simp only [windows_cons hc, windows_cons hq, windows_nil]
        · simp only [lexThree, if_neg e, if_neg e']
          have := stepWindows_one hc one (x :: cs)
          rw [windows_cons hx] at this
          exact this

theorem windows_drop_quote {q : Char} (hq : q ≠ '\n') (s : Str) (h : ∀ c, s.head? = some c → c = q) : (windows s).drop 1 = windows (s.drop 1) := by
  cases s with
  | nil => rfl
  | cons c s =>
    have : c = q := h c rfl
    subst this
    rw [windows_cons hq]; rfl

theorem stepWindows_quoted {q : Char} (hq : q ≠ '\n') (hr : q ≠ '\r') (k : Kind) (cs : Str) : StepWindows (lexQuoted q k cs) (lexQuoted q k (windows cs)) := by
  have hp : (decide ('\r' ≠ q)) = decide ('\n' ≠ q) := by rw [decide_eq_true hr.symm, decide_eq_true hq.symm]
  obtain ⟨h1, h2⟩ := windows_while (p := fun c => decide (c ≠ q)) hp cs
  unfold StepWindows lexQuoted windowsToken
  rw [h1, h2, windows_drop_quote hq]
  intro c hc
  have := tmpl_dropWhile_head (p := fun c => decide (c ≠ q)) cs c hc
  simpa using this

theorem contains_windows (s : Str) : (windows s).contains '.' = s.contains '.' := by
  induction s with
  | nil => rfl
  | cons c s ih =>
    by_cases hc : c = '\n'
    · subst hc; rw [windows_lf]; simp only [List.contains_cons, ih]; rfl
    · rw [windows_cons hc]; simp only [List.contains_cons, ih]

theorem lexOne_windows {c : Char} (cs : Str) (hc : isWs c = false) : StepWindows (lexOne c cs) (lexOne c (windows cs)) := by
  have hl : c ≠ '\n' := by intro e; subst e; exact absurd hc (by decide)
  unfold lexOne
  refine stepWindows_ite (fun e => ?_) fun _ => ?_
  · exact stepWindows_two hl (by decide) (by decide) _ _ _
  refine stepWindows_ite (fun e => ?_) fun _ => ?_
  · exact stepWindows_two hl (by decide) (by decide) _ _ _
  iterate 6
    refine stepWindows_ite (fun e => ?_) fun _ => ?_
    · exact stepWindows_one hl _ _
  refine stepWindows_ite (fun e => ?_) fun _ => ?_
  · exact stepWindows_two hl (by decide) (by decide) _ _ _
  refine stepWindows_ite (fun e => ?_) fun _ => ?_
  · exact stepWindows_two hl (by decide) (by decide) _ _ _
  refine stepWindows_ite (fun e => ?_) fun _ => ?_
  · exact stepWindows_three hl (by decide) (by decide) (by decide) (by decide) _ _ _ _
  refine stepWindows_ite (fun e => ?_) fun _ => ?_
  · exact stepWindows_three hl (by decide) (by decide) (by decide) (by decide) _ _ _ _
  iterate 10
    refine stepWindows_ite (fun e => ?_) fun _ => ?_
    · exact stepWindows_one hl _ _
  refine stepWindows_ite (fun e => ?_) fun _ => ?_
  · exact stepWindows_quoted (by decide) (by decide) _ _
  refine stepWindows_ite (fun e => ?_) fun _ => ?_
  · exact stepWindows_quoted (by decide) (by decide) _ _
  refine stepWindows_ite (fun e => ?_) fun _ => ?_
  · obtain ⟨h1, h2⟩ := windows_while (p := isNumChar) (by decide) cs
    unfold StepWindows lexNumber windowsToken
    dsimp only
    rw [h1, h2, contains_windows, windows_cons hl]
  refine stepWindows_ite (fun e => ?_) fun _ => ?_
  · obtain ⟨h1, h2⟩ := windows_while (p := isWordChar) (by decide) cs
    have h3 : windows (cs.takeWhile isWordChar) = cs.takeWhile isWordChar :=
      windows_same fun hm => absurd (tmpl_takeWhile_all cs _ hm) (by decide)
    unfold StepWindows lexWord windowsToken
    dsimp only
    rw [h1, h2, h3, windows_cons hl, h3]
  exact stepWindows_one hl _ _

/-- Lexing the changed text gives the same tokens with changed literals. -/
theorem segment_windows (text : Str) : segment (windows text) = (segment text).map windowsToken := by
  refine lex_induction (P := fun text => segment (windows text) = (segment text).map windowsToken) ?_ ?_ ?_ text
  · rfl
  · intro c cs hc ih
    rw [segment_ws c cs hc, ← ih]
    by_cases h : c = '\n'
    · subst h
      rw [windows_lf, segment_ws _ _ (by decide), segment_ws _ _ (by decide)]
    · rw [windows_cons h, segment_ws c _ hc]
  · intro c cs hc ih
    have hl : c ≠ '\n' := by intro e; subst e; exact absurd hc (by decide)
    have hs : lexOne c (windows cs) = _ := lexOne_windows cs hc
    rw [windows_cons hl, segment_tok c _ hc, segment_tok c cs hc, hs, List.map_cons, ← ih]

theorem token_windows {t : Token} (h : TokenOk t) : windowsToken t = withText windows windows t := by
  obtain ⟨k, lit⟩ := t
  have same : '\n' ∉ lit → k ≠ .String → k ≠ .Template → windowsToken ⟨k, lit⟩ = withText windows windows ⟨k, lit⟩ := fun h1 h2 h3 => by
    rw [withText_plain windows windows (k := k) rfl h2 h3]
    unfold windowsToken
    rw [windows_same h1]
  cases k
  case String => rfl
  case Template => rfl
  case Eof => exact absurd h (fun h => h)
  case Illegal =>
    obtain ⟨c, h1, h2, -⟩ := h
    dsimp only at h1
    subst h1
    refine same (fun hm => ?_) (by decide) (by decide)
    rw [List.mem_singleton] at hm
    subst hm
    exact absurd h2 (by decide)
  case Ident =>
    obtain ⟨⟨c, r, h1, h2, h3⟩, -⟩ := h
    dsimp only at h1
    subst h1
    refine same (fun hm => ?_) (by decide) (by decide)
    rcases List.mem_cons.1 hm with hm | hm
    · subst hm; exact absurd h2 (by decide)
    · exact absurd (h3 _ hm) (by decide)
  case Integer => exact same (fun hm => absurd (h.2 _ hm) (by decide)) (by decide) (by decide)
  case Float => exact same (fun hm => absurd (h.2.1 _ hm) (by decide)) (by decide) (by decide)
  all_goals
    have h' : some _ = some lit := h
    injection h' with h'
    subst h'
    exact same (by decide) (by decide) (by decide)

/-- Only the texts in quotes change. -/
theorem segment_withText (text : Str) : segment (windows text) = (segment text).map (withText windows windows) := by
  rw [segment_windows]
  obtain ⟨b, hb⟩ := segment_layout text
  obtain ⟨init, h1, h2⟩ := layout_tokens_ok hb
  rw [h1]
  refine List.map_congr_left fun t ht => ?_
  rcases List.mem_append.1 ht with ht | ht
  · exact token_windows (h2 t ht)
  · rw [List.mem_singleton] at ht
    subst ht
    rfl

/-- Taking the carriage returns away again. -/
def unwindows : Str → Str
  | [] => []
  | '\r' :: '\n' :: r => '\n' :: unwindows r
  | c :: r => c :: unwindows r

theorem unwindows_windows (s : Str) : unwindows (windows s) = s := by
  induction s with
  | nil => rfl
  | cons c s ih =>
    by_cases hc : c = '\n'
    · subst hc; rw [windows_lf, unwindows, ih]
    · rw [windows_cons hc]
      rw [unwindows.eq_3]
      · rw [ih]
      · intro r e1 e2
        subst e1
        cases s with
        | nil => cases e2
        | cons x s =>
          by_cases hx : x = '\n'
          · subst hx; rw [windows_lf] at e2; cases e2
          · rw [windows_cons hx] at e2; injection e2 with e2; exact hx e2

theorem withText_back (t : Token) : withText unwindows unwindows (withText windows windows t) = t := by
  obtain ⟨k, lit⟩ := t
  by_cases h1 : k = .String
  · subst h1
    show (⟨.String, unwindows (windows lit)⟩ : Token) = _
    rw [unwindows_windows]
  · by_cases h2 : k = .Template
    · subst h2
      show (⟨.Template, unwindows (windows lit)⟩ : Token) = _
      rw [unwindows_windows]
    · rw [withText_plain windows windows (k := k) rfl h1 h2, withText_plain unwindows unwindows (k := k) rfl h1 h2]

theorem segment_back (text : Str) : (segment (windows text)).map (withText unwindows unwindows) = segment text := by
  rw [segment_withText, List.map_map]
  refine (List.map_congr_left fun t _ => withText_back t).trans (List.map_id _)

/-- The characters of a literal are characters of the text. -/
theorem literal_mem {b : Bool} {s : Str} {ts : List Token} (h : Layout b s ts) : ∀ t ∈ ts, ∀ c ∈ t.literal, c ∈ s := by
  induction h with
  | eof ws _ =>
    intro t ht c hc
    rw [List.mem_singleton] at ht
    subst ht
    cases hc
  | tok b ws t rest ts _ h1 _ _ ih =>
    intro x hx c hc
    rcases List.mem_cons.1 hx with hx | hx
    · subst hx
      refine List.mem_append_left _ (List.mem_append_right _ ?_)
      unfold spell
      split
      · exact List.mem_append_left _ (List.mem_append_right _ hc)
      · exact List.mem_append_left _ (List.mem_append_right _ hc)
      · exact hc
    · exact List.mem_append_right _ (ih x hx c hc)
  | openString ws lit _ hl =>
    intro t ht c hc
    rcases List.mem_cons.1 ht with ht | ht
    · subst ht; exact List.mem_append_right _ hc
    · rw [List.mem_singleton] at ht
      subst ht
      cases hc
  | openTemplate ws lit _ hl =>
    intro t ht c hc
    rcases List.mem_cons.1 ht with ht | ht
    · subst ht; exact List.mem_append_right _ hc
    · rw [List.mem_singleton] at ht
      subst ht
      cases hc

/-! ## Messages -/

/-- The pieces of the changed text. -/
def windowsPieces (ps : List Piece) : List Piece := ps.flatMap fun p => if p = .lit '\n' then [.lit '\r', .lit '\n'] else [p]

theorem windowsPieces_lit {c : Char} (h : c ≠ '\n') (ps : List Piece) : windowsPieces (.lit c :: ps) = .lit c :: windowsPieces ps := by
  unfold windowsPieces
  rw [List.flatMap_cons, if_neg (fun e => h (by injection e))]; rfl

theorem windows_ws {s : Str} (h : ∀ c ∈ s, isWs c = true) : ∀ c ∈ windows s, isWs c = true := by
  intro c hc
  unfold windows at hc
  obtain ⟨x, hx, hc⟩ := List.mem_flatMap.1 hc
  by_cases e : x = '\n'
  · rw [if_pos e] at hc
    rcases List.mem_cons.1 hc with rfl | hc
    · decide
    · rw [List.mem_singleton] at hc; subst hc; decide
  · rw [if_neg e, List.mem_singleton] at hc
    subst hc
    exact h _ hx

theorem name_windows {n : Str} {c : Char} (h1 : isWordStart c = true) (h2 : ∀ x ∈ n, isWordChar x = true) : windows (c :: n) = c :: n := by
  refine windows_same fun hm => ?_
  rcases List.mem_cons.1 hm with hm | hm
  · subst hm; exact absurd h1 (by decide)
  · exact absurd (h2 _ hm) (by decide)

theorem hole_windows {h n : Str} (hh : IsHole h n) : IsHole (windows h) n := by
  obtain ⟨b, a, c, r, e1, e2, h1, h2, h3, h4⟩ := hh
  refine ⟨windows b, windows a, c, r, ?_, e2, windows_ws h1, windows_ws h2, h3, h4⟩
  rw [e1, windows_cons (by decide), windows_append, windows_append, windows_append, name_windows h3 h4]; rfl

theorem matchAt_windows (s : Str) (h : matchAt s = none) : matchAt (windows s) = none := by
  cases s with
  | nil => rfl
  | cons c cs =>
    by_cases hc : c = '{'
    · subst hc
      rw [windows_cons (by decide)]
      simp only [matchAt] at h ⊢
      rw [(windows_while (p := isWs) (by decide) cs).2]
      cases hd : cs.dropWhile isWs with
      | nil => rfl
      | cons x r =>
        rw [hd] at h
        dsimp only at h
        by_cases hx : isWordStart x = true
        · have hl : x ≠ '\n' := by intro e; subst e; exact absurd hx (by decide)
          rw [if_pos hx] at h
          rw [windows_cons hl]
          dsimp only
          rw [if_pos hx, (windows_while (p := isWordChar) (by decide) r).2, (windows_while (p := isWs) (by decide) _).2]
          cases hr : (r.dropWhile isWordChar).dropWhile isWs with
          | nil => rfl
          | cons y u =>
            rw [hr] at h
            by_cases hy : y = '}'
            · subst hy; cases h
            · have hw : isWs y = false := tmpl_dropWhile_head (p := isWs) (r.dropWhile isWordChar) y (by rw [hr]; rfl)
              have hl : y ≠ '\n' := by intro e; subst e; exact absurd hw (by decide)
              rw [windows_cons hl]
              split
              · rename_i e; injection e with e; exact absurd e hy
              · rfl
        · have hw : isWs x = false := tmpl_dropWhile_head (p := isWs) cs x (by rw [hd]; rfl)
          have hl : x ≠ '\n' := by intro e; subst e; exact absurd hw (by decide)
          rw [windows_cons hl]
          dsimp only
          rw [if_neg hx]
    · obtain ⟨y, r, e1, e2, e3⟩ := windows_head c cs
      rw [e1]
      have hy : y ≠ '{' := by
        by_cases hl : c = '\n'
        · rw [e3 hl]; decide
        · rw [(e2 hl).1]; exact hc
      unfold matchAt
      split
      · rename_i e; injection e with e; exact absurd e hy
      · rfl

theorem pieces_windows {m : Str} {ps : List Piece} (h : Pieces m ps) : Pieces (windows m) (windowsPieces ps) := by
  induction h with
  | nil => exact .nil
  | @hole h n rest ps hh _ ih =>
    rw [windows_append]
    exact .hole (hole_windows hh) ih
  | @lit c rest ps hn _ ih =>
    have h1 := matchAt_none.1 (matchAt_windows _ (matchAt_none.2 hn))
    by_cases hc : c = '\n'
    · subst hc
      rw [windows_lf] at h1 ⊢
      exact .lit h1 (.lit (fun h n t hi e => by
        obtain ⟨b, a, x, r, e1, -⟩ := hi
        subst e1
        cases e) ih)
    · rw [windows_cons hc] at h1 ⊢
      rw [windowsPieces_lit hc]
      exact .lit h1 ih

/-- The second text is the first with carriage returns before some line feeds. -/
inductive WithReturns : Str → Str → Prop
  | nil : WithReturns [] []
  | cons (c : Char) {s s' : Str} : WithReturns s s' → WithReturns (c :: s) (c :: s')
  | lf {s s' : Str} : WithReturns s s' → WithReturns ('\n' :: s) ('\r' :: '\n' :: s')

theorem withReturns_same (s : Str) : ∀ {r r' : Str}, WithReturns r r' → WithReturns (s ++ r) (s ++ r') := by
  induction s with
  | nil => intro r r' h; exact h
  | cons c s ih => intro r r' h; exact .cons c (ih h)

theorem withReturns_fill (f : Str → Str) (ps : List Piece) : WithReturns (fillBy f ps) (fillBy f (windowsPieces ps)) := by
  induction ps with
  | nil => exact .nil
  | cons p ps ih =>
    cases p with
    | hole n => exact withReturns_same (f n) ih
    | lit c =>
      by_cases hc : c = '\n'
      · subst hc; exact .lf ih
      · rw [windowsPieces_lit hc]; exact .cons c ih

theorem withReturns_line {s s' : Str} (h : WithReturns s s') : ('\n' ∉ s ∧ s' = s) ∨ ∃ l r r' e, s = l ++ '\n' :: r ∧ s' = l ++ e ++ '\n' :: r' ∧ (e = [] ∨ e = ['\r']) ∧
    '\n' ∉ l ∧ WithReturns r r' := by
  induction h with
  | nil => exact .inl ⟨by decide, rfl⟩
  | @cons c s s' h ih =>
    by_cases hc : c = '\n'
    · subst hc; exact .inr ⟨[], s, s', [], rfl, rfl, .inl rfl, by decide, h⟩
    · rcases ih with ⟨h1, h2⟩ | ⟨l, r, r', e, h1, h2, h3, h4, h5⟩
      · refine .inl ⟨fun hm => ?_, by rw [h2]⟩
        rcases List.mem_cons.1 hm with hm | hm
        · exact hc hm.symm
        · exact h1 hm
      · refine .inr ⟨c :: l, r, r', e, by rw [h1]; rfl, by rw [h2]; rfl, h3, fun hm => ?_, h5⟩
        rcases List.mem_cons.1 hm with hm | hm
        · exact hc hm.symm
        · exact h4 hm
  | @lf s s' h ih => exact .inr ⟨[], s, s', ['\r'], rfl, rfl, .inr rfl, by decide, h⟩

theorem unbroken_lits {l : Str} (h : '\n' ∉ l) : Unbroken (l.map .lit) := by
  intro hm
  obtain ⟨c, hc, e⟩ := List.mem_map.1 hm
  injection e with e
  subst e
  exact h hc

theorem gap_return {e : Str} (h : e = [] ∨ e = ['\r']) : Gap (e.map .lit) := by
  rcases h with rfl | rfl
  · exact fun _ h => (nomatch h)
  · intro p hp
    obtain ⟨c, hc, rfl⟩ := List.mem_map.1 hp
    rw [List.mem_singleton] at hc
    subst hc
    exact ⟨_, rfl, by decide, by decide⟩

theorem gap_none : Gap [] := fun _ h => (nomatch h)

theorem laid_withReturns : ∀ (n : Nat) {s s' : Str}, s.length ≤ n → WithReturns s s' → '\r' ∉ s →
    LaidBody (s.map .lit) (s'.map .lit) ∧ LaidHead (s.map .lit) (s'.map .lit) ∧ Laid (s.map .lit) (s'.map .lit) := by
  intro n
  induction n with
  | zero =>
    intro s s' hn h _
    have : s = [] := List.eq_nil_of_length_eq_zero (Nat.le_zero.1 hn)
    subst this
    generalize he : ([] : Str) = s at h
    cases h with
    | nil => exact ⟨.last [] (by unfold Unbroken; decide), .last [] [] [] [] [] [] gap_none gap_none gap_none gap_none (.same [] (by unfold Unbroken; decide)),
        .one [] [] [] [] [] [] (fun _ h => (nomatch h)) gap_none (fun _ h => (nomatch h)) gap_none (.one [] (by unfold Unbroken; decide))⟩
    | cons c h => cases he
    | lf h => cases he
  | succ n ih =>
    intro s s' hn h hr
    rcases withReturns_line h with ⟨h1, h2⟩ | ⟨l, r, r', e, h1, h2, h3, h4, h5⟩
    · subst h2
      have hu := unbroken_lits h1
      refine ⟨.last _ hu, ?_, ?_⟩
      · have := LaidHead.last [] _ [] [] _ [] gap_none gap_none gap_none gap_none (.same _ hu)
        simpa using this
      · have := Laid.one [] _ [] [] _ [] (fun _ h => (nomatch h)) gap_none (fun _ h => (nomatch h)) gap_none (.one _ hu)
        simpa using this
    · subst h1 h2
      have hlen : r.length ≤ n := by simp at hn; omega
      have hrl : '\r' ∉ l := fun hm => hr (List.mem_append_left _ hm)
      obtain ⟨i1, i2, i3⟩ := ih hlen h5 (fun hm => hr (List.mem_append_right _ (List.mem_cons_of_mem _ hm)))
      have hu := unbroken_lits h4
      refine ⟨?_, ?_, ?_⟩
      · have := LaidBody.line (l.map .lit) [.lit '\n'] ((e ++ ['\n']).map .lit) _ _ hu (by
          intro hm
          obtain ⟨c, hc, e⟩ := List.mem_map.1 hm
          injection e with e
          subst e
          exact hrl hc) (.inl rfl) (by rcases h3 with rfl | rfl <;> first | exact .inl rfl | exact .inr rfl) i1
        simpa using this
      · have := LaidHead.either [] _ [] _ [] _ _ gap_none gap_none gap_none (gap_return h3) hu i2 i1
        simpa using this
      · have := Laid.either [] _ [] _ [] _ _ _ (fun _ h => (nomatch h)) gap_none (fun _ h => (nomatch h)) (gap_return h3) (.one _ hu) i2 i3
        simpa using this

theorem fill_lits (f : Str → Str) (s : Str) : fillBy f (s.map .lit) = s := by
  induction s with
  | nil => rfl
  | cons c s ih => rw [List.map_cons, fillBy, ih]

theorem request_withReturns (mp : List Part → Option (List UInt8)) {s s' : Str} (h : WithReturns s s') (hr : '\r' ∉ s) : Request.ofStr mp s = Request.ofStr mp s' := by
  have := laid_request (f := id) mp (laid_withReturns s.length (Nat.le_refl _) h hr).2.2 (by
    intro n hn
    obtain ⟨c, _, e⟩ := List.mem_map.1 hn
    cases e)
  rw [fill_lits, fill_lits] at this
  exact this

end Am
