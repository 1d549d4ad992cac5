import Verif.Proofs.Printing
/-!
# The tokens of a printed expression, whatever is in it

`dtoks e`: the tokens of the printed `e`. They differ from `toks e` where a number is followed by the point of a field access, which becomes part
of the number, and where a float is not printed as a float.
-/
set_option linter.unusedSimpArgs false
set_option linter.unusedSectionVars false
namespace Am
open Spec
variable {F : Type} [Rt F]

/-- The token of a printed float. -/
def ftok (f : F) : Token :=
  if '.' ∈ Rt.fdisp f then ⟨.Float, Rt.fdisp f⟩ else if Rt.fdisp f = c!"inf" then ⟨.Ident, c!"inf"⟩ else ⟨.Integer, Rt.fdisp f⟩

/-- The printed expression ends with a number. -/
def endsNum : Expr F → Bool
  | .int _ => true
  | .float f => decide (Rt.fdisp f ≠ c!"inf")
  | .letE _ v => endsNum v
  | .unary _ r => endsNum r
  | .binary _ _ r => endsNum r
  | _ => false

/-- A point added to the last token, which becomes a float. -/
def addDot (ts : List Token) : List Token := ts.dropLast ++ ts.getLast?.toList.map fun t => ⟨.Float, t.literal ++ ['.']⟩

mutual
/-- The tokens of the printed expression. -/
def dtoks : Expr F → List Token
  | .int i => [⟨.Integer, intStr i.toInt⟩]
  | .float f => [ftok f]
  | .bool b => [⟨if b then .True else .False, boolStr b⟩]
  | .str s => [⟨.String, s⟩]
  | .ident n => [⟨.Ident, n⟩]
  | .arr es => fixTok .Ls :: (joinToks (fixTok .Comma) (dtoksList es) ++ [fixTok .Rs])
  | .map ps => fixTok .Lb :: (joinToks (fixTok .Comma) (dtoksPairs ps) ++ [fixTok .Rb])
  | .index l i => dtoks l ++ fixTok .Ls :: (dtoks i ++ [fixTok .Rs])
  | .field l n => if endsNum l then addDot (dtoks l) ++ [⟨.Ident, n⟩] else dtoks l ++ [fixTok .Dot, ⟨.Ident, n⟩]
  | .letE n v => fixTok .Let :: ⟨.Ident, n⟩ :: fixTok .Assign :: dtoks v
  | .unary op r => op :: dtoks r
  | .binary op l r => dtoks l ++ op :: dtoks r
  | .paren e => fixTok .Lp :: (dtoks e ++ [fixTok .Rp])
  | .ifE c t e =>
    fixTok .If :: fixTok .Lp :: (dtoks c ++ fixTok .Rp :: (fixTok .Lb :: (joinToks (fixTok .Semi) (dtoksList t) ++
      if e.isEmpty then [fixTok .Rb]
      else [fixTok .Rb] ++ fixTok .Else :: (fixTok .Lb :: (joinToks (fixTok .Semi) (dtoksList e) ++ [fixTok .Rb])))))
  | .call f es => ⟨.Ident, f⟩ :: fixTok .Lp :: (joinToks (fixTok .Comma) (dtoksList es) ++ [fixTok .Rp])
termination_by structural e => e
/-- The tokens of each expression. -/
def dtoksList : List (Expr F) → List (List Token)
  | [] => []
  | e :: es => dtoks e :: dtoksList es
termination_by structural l => l
/-- The tokens of each pair. -/
def dtoksPairs : List (Expr F × Expr F) → List (List Token)
  | [] => []
  | (k, v) :: ps => (dtoks k ++ fixTok .Colon :: dtoks v) :: dtoksPairs ps
termination_by structural l => l
end

mutual
/-- All floats of the expression satisfy `P`. -/
def FloatsAll (P : F → Prop) : Expr F → Prop
  | .int _ | .bool _ | .str _ | .ident _ => True
  | .float f => P f
  | .arr es => FloatsList P es
  | .map ps => FloatsPairs P ps
  | .index l i => FloatsAll P l ∧ FloatsAll P i
  | .field l _ => FloatsAll P l
  | .letE _ v => FloatsAll P v
  | .unary _ r => FloatsAll P r
  | .binary _ l r => FloatsAll P l ∧ FloatsAll P r
  | .paren e => FloatsAll P e
  | .ifE c t e => FloatsAll P c ∧ FloatsList P t ∧ FloatsList P e
  | .call _ es => FloatsList P es
termination_by structural e => e
/-- All expressions of a list. -/
def FloatsList (P : F → Prop) : List (Expr F) → Prop
  | [] => True
  | e :: es => FloatsAll P e ∧ FloatsList P es
termination_by structural l => l
/-- All keys and values. -/
def FloatsPairs (P : F → Prop) : List (Expr F × Expr F) → Prop
  | [] => True
  | (k, v) :: ps => FloatsAll P k ∧ FloatsAll P v ∧ FloatsPairs P ps
termination_by structural l => l
end

/-! ## The floats come from literals -/

mutual
theorem reads_floats {e : Expr F} {ts : List Token} (hl : LiteralsLegible F) (h : Reads e ts) (hok : ∀ t ∈ ts, TokenOk t) : FloatsAll Legible e := by
  match h with
  | .int _ _ _ _ => trivial
  | .float t f hk hp =>
    have ht := hok t (by simp)
    obtain ⟨k, l⟩ := t
    simp only at hk
    subst hk
    exact hl l f ht hp
  | .bool _ _ _ _ => trivial
  | .str _ _ => trivial
  | .ident _ _ => trivial
  | .arr _ _ _ ts _ _ h1 => exact readsList_floats hl h1 (fun t ht => hok t (by simp [ht]))
  | .map _ _ _ ts _ _ h1 => exact readsPairs_floats hl h1 (fun t ht => hok t (by simp [ht]))
  | .index _ _ _ _ te ti _ _ h1 h2 =>
    exact ⟨reads_floats hl h1 (fun t ht => hok t (by simp [ht])), reads_floats hl h2 (fun t ht => hok t (by simp [ht]))⟩
  | .field _ n _ te _ hn h1 =>
    have ih := reads_floats hl h1 (fun t ht => hok t (by simp [ht]))
    exact ih
  | .letE _ n _ _ tv sm _ hn _ h1 _ =>
    have ih := reads_floats hl h1 (fun t ht => hok t (by simp [ht]))
    exact ih
  | .unary op _ te _ h1 =>
    have ih := reads_floats hl h1 (fun t ht => hok t (by simp [ht]))
    exact ih
  | .binary op _ _ tl tr _ h1 h2 =>
    exact ⟨reads_floats hl h1 (fun t ht => hok t (by simp [ht])), reads_floats hl h2 (fun t ht => hok t (by simp [ht]))⟩
  | .paren _ _ _ te _ _ h1 =>
    have ih := reads_floats hl h1 (fun t ht => hok t (by simp [ht]))
    exact ih
  | .ifThen _ _ _ _ _ tc tt _ _ _ h1 h2 =>
    exact ⟨reads_floats hl h1 (fun t ht => hok t (by simp [ht])), readsBlock_floats hl h2 (fun t ht => hok t (by simp [ht])), trivial⟩
  | .ifElse _ _ _ _ _ _ _ tc tt te _ _ _ _ h1 h2 h3 =>
    exact ⟨reads_floats hl h1 (fun t ht => hok t (by simp [ht])), readsBlock_floats hl h2 (fun t ht => hok t (by simp [ht])),
      readsBlock_floats hl h3 (fun t ht => hok t (by simp [ht]))⟩
  | .call f _ _ _ ts _ _ _ h1 => exact readsList_floats hl h1 (fun t ht => hok t (by simp [ht]))
theorem readsList_floats {es : List (Expr F)} {ts : List Token} (hl : LiteralsLegible F) (h : ReadsList es ts) (hok : ∀ t ∈ ts, TokenOk t) :
    FloatsList Legible es := by
  match h with
  | .nil => trivial
  | .last _ _ h1 => exact ⟨reads_floats hl h1 hok, trivial⟩
  | .cons _ _ _ _ _ _ h1 h2 =>
    exact ⟨reads_floats hl h1 (fun t ht => hok t (by simp [ht])), readsList_floats hl h2 (fun t ht => hok t (by simp [ht]))⟩
theorem readsPairs_floats {ps : List (Expr F × Expr F)} {ts : List Token} (hl : LiteralsLegible F) (h : ReadsPairs ps ts) (hok : ∀ t ∈ ts, TokenOk t) :
    FloatsPairs Legible ps := by
  match h with
  | .nil => trivial
  | .last _ _ _ _ _ _ h1 h2 =>
    exact ⟨reads_floats hl h1 (fun t ht => hok t (by simp [ht])), reads_floats hl h2 (fun t ht => hok t (by simp [ht])), trivial⟩
  | .cons _ _ _ _ _ _ _ _ _ _ h1 h2 h3 =>
    exact ⟨reads_floats hl h1 (fun t ht => hok t (by simp [ht])), reads_floats hl h2 (fun t ht => hok t (by simp [ht])),
      readsPairs_floats hl h3 (fun t ht => hok t (by simp [ht]))⟩
theorem readsBlock_floats {es : List (Expr F)} {ts : List Token} (hl : LiteralsLegible F) (h : ReadsBlock es ts) (hok : ∀ t ∈ ts, TokenOk t) :
    FloatsList Legible es := by
  match h with
  | .mk _ _ _ _ _ _ h1 => exact readsSeq_floats hl h1 (fun t ht => hok t (by simp [ht]))
theorem readsSeq_floats {es : List (Expr F)} {ts : List Token} (hl : LiteralsLegible F) (h : ReadsSeq es ts) (hok : ∀ t ∈ ts, TokenOk t) :
    FloatsList Legible es := by
  match h with
  | .nil => trivial
  | .cons _ _ _ _ _ h1 _ h2 =>
    exact ⟨reads_floats hl h1 (fun t ht => hok t (by simp [ht])), readsSeq_floats hl h2 (fun t ht => hok t (by simp [ht]))⟩
end

/-! ## The printed text is these tokens -/

theorem addDot_append {a b : List Token} (h : b ≠ []) : addDot (a ++ b) = a ++ addDot b := by
  unfold addDot
  rw [List.dropLast_append_of_ne_nil h, List.getLast?_append]
  cases hb : b.getLast? with
  | none => simp at hb; exact absurd hb h
  | some t => simp

theorem addDot_cons {a : Token} {b : List Token} (h : b ≠ []) : addDot (a :: b) = a :: addDot b := addDot_append (a := [a]) h

theorem dtoks_ne : ∀ (e : Expr F), dtoks e ≠ []
  | .int _ | .float _ | .bool _ | .str _ | .ident _ | .arr _ | .map _ | .letE _ _ | .unary _ _ | .paren _ | .ifE _ _ _ | .call _ _ => by simp [dtoks]
  | .index _ _ | .binary _ _ _ => by simp [dtoks]
  | .field l n => by simp only [dtoks]; split <;> simp

/-- The text after the expression does not change its last token. -/
def Apart (e : Expr F) (rest : Str) : Prop := ∀ c r, rest = c :: r → isWordChar c = false ∧ (c = '.' → endsNum e = false)

theorem EndsText.apart {rest : Str} (h : EndsText rest) (e : Expr F) : Apart e rest :=
  fun c r hr => ⟨(h c r hr).1, fun hc => absurd hc (h c r hr).2⟩

theorem Apart.same {e e' : Expr F} {rest : Str} (h : Apart e rest) (he : endsNum e = endsNum e') : Apart e' rest :=
  fun c r hr => ⟨(h c r hr).1, fun hc => by rw [← he]; exact (h c r hr).2 hc⟩

theorem inf_ok : TokenOk ⟨.Ident, c!"inf"⟩ := ⟨⟨'i', c!"nf", rfl, by decide, by decide⟩, by decide⟩

theorem wordStart_not_digit {c : Char} (h : isWordStart c = true) : isDigit c = false := by
  cases hw : isDigit c with
  | false => rfl
  | true =>
    simp only [isWordStart, isAlpha, isDigit, Bool.or_eq_true, Bool.and_eq_true, decide_eq_true_eq, beq_iff_eq, Char.le_def, UInt32.le_iff_toNat_le] at h hw
    rcases h with (h | h) | h
    · exact absurd (Nat.le_trans h.1 hw.2) (by decide)
    · exact absurd (Nat.le_trans h.1 hw.2) (by decide)
    · rw [h] at hw; exact absurd hw (by decide)

/-- How a legible float is lexed. -/
theorem ftok_cases {f : F} (h : Legible f) :
    (FloatPrints f ∧ ftok f = ⟨.Float, Rt.fdisp f⟩ ∧ Rt.fdisp f ≠ c!"inf") ∨
    (TokenOk ⟨.Integer, Rt.fdisp f⟩ ∧ ftok f = ⟨.Integer, Rt.fdisp f⟩ ∧ Rt.fdisp f ≠ c!"inf") ∨
    (Rt.fdisp f = c!"inf" ∧ ftok f = ⟨.Ident, c!"inf"⟩) := by
  rcases h with h | h | h
  · have h1 : '.' ∉ Rt.fdisp f := fun hm => absurd (h.2 '.' hm) (by decide)
    have h2 : Rt.fdisp f ≠ c!"inf" := fun he => absurd (h.2 'i' (by rw [he]; simp)) (by decide)
    exact Or.inr (Or.inl ⟨h, by simp [ftok, h1, h2], h2⟩)
  · have h1 : '.' ∈ Rt.fdisp f := h.1.2.2
    have h2 : Rt.fdisp f ≠ c!"inf" := fun he => by rw [he] at h1; exact absurd h1 (by decide)
    exact Or.inl ⟨h, by simp [ftok, h1], h2⟩
  · refine Or.inr (Or.inr ⟨h, ?_⟩)
    have h1 : '.' ∉ Rt.fdisp f := by rw [h]; decide
    simp [ftok, h]

/-- A number and the point after it are one token. -/
theorem number_dot {s : Str} (h : TokenOk ⟨.Integer, s⟩ ∨ TokenOk ⟨.Float, s⟩) {rest : Str} (hr : ∀ c r, rest = c :: r → isDigit c = false ∧ c ≠ '.') :
    segment (s ++ '.' :: rest) = ⟨.Float, s ++ ['.']⟩ :: segment rest := by
  have : s ++ '.' :: rest = spell ⟨.Float, s ++ ['.']⟩ ++ rest := by simp [spell]
  rw [this]
  refine lex_spell ⟨.Float, s ++ ['.']⟩ rest ?_ fun c r hc => ?_
  · rcases h with h | h
    · refine ⟨?_, ?_, by simp⟩
      · cases s with
        | nil => exact absurd rfl h.1
        | cons c r => exact ⟨c, r ++ ['.'], rfl, h.2 c (by simp)⟩
      · intro c hc
        simp only [List.mem_append, List.mem_singleton] at hc
        rcases hc with hc | hc
        · exact Or.inl (h.2 c hc)
        · exact Or.inr hc
    · obtain ⟨⟨c, r, h1, h2⟩, h3, h4⟩ := h
      simp only at h1 h3 h4
      refine ⟨⟨c, r ++ ['.'], by rw [h1]; rfl, h2⟩, ?_, by simp⟩
      intro c hc
      simp only [List.mem_append, List.mem_singleton] at hc
      rcases hc with hc | hc
      · exact h3 c hc
      · exact Or.inr hc
  · obtain ⟨h1, h2⟩ := hr c r hc
    simp [extends', h1, h2]

theorem display_first {e : Expr F} : Formed e → FloatsAll Legible e → ∃ c r, e.display = c :: r ∧ c ≠ '=' := by
  have digit : ∀ {s : Str}, s ≠ [] → (∀ c ∈ s, isDigit c = true) → ∃ c r, s = c :: r ∧ c ≠ '=' := by
    intro s h1 h2
    cases s with
    | nil => exact absurd rfl h1
    | cons c r =>
      refine ⟨c, r, rfl, ?_⟩
      rintro rfl
      exact absurd (h2 '=' (by simp)) (by decide)
  have word : ∀ {n : Str}, TokenOk ⟨.Ident, n⟩ → ∃ c r, n = c :: r ∧ c ≠ '=' := by
    rintro n ⟨⟨c, r, h1, h2, _⟩, _⟩
    refine ⟨c, r, h1, ?_⟩
    rintro rfl
    exact absurd h2 (by decide)
  have app : ∀ {s t : Str}, (∃ c r, s = c :: r ∧ c ≠ '=') → ∃ c r, s ++ t = c :: r ∧ c ≠ '=' := by
    rintro s t ⟨c, r, rfl, h⟩
    exact ⟨c, r ++ t, rfl, h⟩
  induction e using Expr.rec (motive_2 := fun _ => True) (motive_3 := fun _ => True) (motive_4 := fun _ => True) with
  | int i =>
    intro hf _
    obtain ⟨h1, h2⟩ := (int_back hf).1
    exact digit h1 h2
  | float f =>
    intro _ hp
    rcases hp with hp | hp | hp
    · exact digit hp.1 hp.2
    · obtain ⟨⟨c, r, h1, h2⟩, _⟩ := hp.1
      refine ⟨c, r, h1, ?_⟩
      rintro rfl
      exact absurd h2 (by decide)
    · exact ⟨'i', c!"nf", hp, by decide⟩
  | bool b => intro _ _; cases b <;> exact ⟨_, _, rfl, by decide⟩
  | str s => intro _ _; exact ⟨_, _, rfl, by decide⟩
  | ident n => intro hf _; exact word hf
  | arr es => intro _ _; exact ⟨_, _, rfl, by decide⟩
  | map es => intro _ _; exact ⟨_, _, rfl, by decide⟩
  | index l i ih => intro hf hp; simp only [Expr.display]; exact app (app (app (ih hf.1 hp.1)))
  | field l n ih => intro hf hp; simp only [Expr.display]; exact app (app (ih hf.1 hp))
  | letE n v => intro _ _; exact ⟨_, _, rfl, by decide⟩
  | unary op r =>
    intro hf _
    simp only [Expr.display]
    rcases hf.1 with rfl | rfl <;> exact ⟨_, _, rfl, by decide⟩
  | binary op l r ih => intro hf hp; simp only [Expr.display]; exact app (app (app (app (ih hf.2.2.1 hp.1))))
  | paren e => intro _ _; exact ⟨_, _, rfl, by decide⟩
  | ifE c t e => intro _ _; exact ⟨_, _, rfl, by decide⟩
  | call f es => intro hf _; simp only [Expr.display]; exact app (app (app (word hf.1)))
  | _ => trivial

mutual
theorem display_tokens (e : Expr F) (hf : Formed e) (hp : FloatsAll Legible e) (rest : Str) :
    (Apart e rest → segment (e.display ++ rest) = dtoks e ++ segment rest) ∧
    (endsNum e = true → (∀ c r, rest = c :: r → isDigit c = false ∧ c ≠ '.') → segment (e.display ++ '.' :: rest) = addDot (dtoks e) ++ segment rest) := by
  match e with
  | .int i =>
    refine ⟨fun hc => lex_spell ⟨.Integer, intStr i.toInt⟩ rest (int_back hf).1 fun c r hr => ?_, fun _ hr => number_dot (Or.inl (int_back hf).1) hr⟩
    obtain ⟨h1, h2⟩ := hc c r hr
    have : c ≠ '.' := fun h => by have := h2 h; cases this
    simp [extends', word_digit h1, this]
  | .float f =>
    simp only [Expr.display, dtoks]
    rcases ftok_cases hp with ⟨h1, h2, h3⟩ | ⟨h1, h2, h3⟩ | ⟨h1, h2⟩
    · rw [h2]
      refine ⟨fun hc => lex_spell ⟨.Float, Rt.fdisp f⟩ rest h1.1 fun c r hr => ?_, fun _ hr => number_dot (Or.inr h1.1) hr⟩
      obtain ⟨g1, g2⟩ := hc c r hr
      have : c ≠ '.' := fun h => by have := g2 h; simp [endsNum, h3] at this
      simp [extends', word_digit g1, this]
    · rw [h2]
      refine ⟨fun hc => lex_spell ⟨.Integer, Rt.fdisp f⟩ rest h1 fun c r hr => ?_, fun _ hr => number_dot (Or.inl h1) hr⟩
      obtain ⟨g1, g2⟩ := hc c r hr
      have : c ≠ '.' := fun h => by have := g2 h; simp [endsNum, h3] at this
      simp [extends', word_digit g1, this]
    · rw [h2, h1]
      refine ⟨fun hc => seg_ident inf_ok fun c r hr => (hc c r hr).1, fun he => ?_⟩
      simp [endsNum, h1] at he
  | .bool b =>
    refine ⟨fun hc => ?_, fun he => by cases he⟩
    cases b
    · exact lex_spell ⟨.False, c!"false"⟩ rest rfl fun c r hr => (hc c r hr).1
    · exact lex_spell ⟨.True, c!"true"⟩ rest rfl fun c r hr => (hc c r hr).1
  | .str s => exact ⟨fun hc => lex_spell ⟨.String, s⟩ rest hf fun c r hr => rfl, fun he => by cases he⟩
  | .ident n => exact ⟨fun hc => seg_ident hf fun c r hr => (hc c r hr).1, fun he => by cases he⟩
  | .arr es =>
    refine ⟨fun hc => ?_, fun he => by cases he⟩
    simp only [Expr.display, dtoks, List.append_assoc]
    rw [seg_fixed .Ls _ rfl (fun _ => rfl), displayList_tokens es hf hp _ (closed_lit ']' [] (by decide) (by decide)),
      seg_fixed .Rs _ rfl (fun _ => rfl)]
    simp
  | .map ps =>
    refine ⟨fun hc => ?_, fun he => by cases he⟩
    simp only [Expr.display, dtoks, List.append_assoc]
    rw [seg_fixed .Lb _ rfl (fun _ => rfl), displayPairs_tokens ps hf hp _ (closed_lit '}' [] (by decide) (by decide)),
      seg_fixed .Rb _ rfl (fun _ => rfl)]
    simp
  | .index l i =>
    refine ⟨fun hc => ?_, fun he => by cases he⟩
    simp only [Expr.display, dtoks, List.append_assoc]
    rw [(display_tokens l hf.1 hp.1 _).1 ((closed_lit '[' [] (by decide) (by decide)).apart l), seg_fixed .Ls _ rfl (fun _ => rfl),
      (display_tokens i hf.2 hp.2 _).1 ((closed_lit ']' [] (by decide) (by decide)).apart i), seg_fixed .Rs _ rfl (fun _ => rfl)]
    simp
  | .field l n =>
    refine ⟨fun hc => ?_, fun he => by cases he⟩
    have start : ∀ c r, n ++ rest = c :: r → isDigit c = false ∧ c ≠ '.' := by
      obtain ⟨⟨c, r, h1, h2, _⟩, _⟩ := hf.2
      simp only at h1
      rw [h1]
      rintro c' r' ⟨⟩
      constructor
      · exact wordStart_not_digit h2
      · rintro rfl; exact absurd h2 (by decide)
    simp only [Expr.display, dtoks, List.append_assoc]
    by_cases hl : endsNum l = true
    · rw [if_pos hl]
      have := (display_tokens l hf.1 hp (n ++ rest)).2 hl start
      rw [show c!"." ++ (n ++ rest) = '.' :: (n ++ rest) from rfl, this, seg_ident hf.2 (fun c r hr => (hc c r hr).1)]
      simp
    · rw [if_neg hl, (display_tokens l hf.1 hp _).1 (by rintro c r ⟨⟩; exact ⟨by decide, fun _ => by simpa using hl⟩),
        seg_fixed .Dot _ rfl (fun _ => rfl), seg_ident hf.2 (fun c r hr => (hc c r hr).1)]
      simp
  | .letE n v =>
    have e1 : ∀ x, (Expr.letE n v).display ++ x = c!"let" ++ ' ' :: (n ++ ' ' :: (c!"=" ++ ' ' :: (v.display ++ x))) := by
      simp [Expr.display]
    constructor
    · intro hc
      rw [e1, seg_fixed_blank .Let _ rfl, seg_ident hf.1 (by rintro c r ⟨⟩; decide), seg_blank, seg_fixed_blank .Assign _ rfl,
        (display_tokens v hf.2 hp rest).1 (hc.same rfl)]
      simp [dtoks]
    · intro he hr
      rw [e1, seg_fixed_blank .Let _ rfl, seg_ident hf.1 (by rintro c r ⟨⟩; decide), seg_blank, seg_fixed_blank .Assign _ rfl,
        (display_tokens v hf.2 hp rest).2 he hr]
      simp only [dtoks]
      rw [addDot_cons (by simp), addDot_cons (by simp), addDot_cons (dtoks_ne v)]
      rfl
  | .unary op r =>
    have first : ∀ x, segment (op.literal ++ (r.display ++ x)) = op :: segment (r.display ++ x) := by
      intro x
      rcases hf.1 with rfl | rfl
      · refine lex_spell (fixTok .Not) _ rfl fun c q hq => ?_
        obtain ⟨c', r', hd, hne⟩ := display_first hf.2 hp
        rw [hd] at hq
        simp only [List.cons_append, List.cons.injEq] at hq
        rw [← hq.1]
        simp [extends', fixTok, hne]
      · exact seg_fixed .Sub _ rfl (fun _ => rfl)
    simp only [Expr.display, dtoks, List.append_assoc]
    constructor
    · intro hc
      rw [first, (display_tokens r hf.2 hp rest).1 (hc.same rfl)]
      rfl
    · intro he hr
      rw [first, (display_tokens r hf.2 hp rest).2 he hr, addDot_cons (dtoks_ne r)]
      rfl
  | .binary op l r =>
    obtain ⟨p2, p3⟩ := hp
    obtain ⟨f0, f1, f2, f3⟩ := hf
    have hx : fixedText op.kind = some op.literal := by
      rw [f1]
      revert f0
      simp only [fixTok]
      cases op.kind <;> simp [fixedText, Kind.isBinary]
    have e1 : ∀ x, (Expr.binary op l r).display ++ x = l.display ++ ' ' :: (op.literal ++ ' ' :: (r.display ++ x)) := by
      simp [Expr.display]
    constructor
    · intro hc
      rw [e1, (display_tokens l f2 p2 _).1 ((closed_cons (by decide) (by decide)).apart l), seg_blank, seg_fixed_blank op.kind _ hx,
        (display_tokens r f3 p3 rest).1 (hc.same rfl), ← f1]
      simp [dtoks]
    · intro he hr
      rw [e1, (display_tokens l f2 p2 _).1 ((closed_cons (by decide) (by decide)).apart l), seg_blank, seg_fixed_blank op.kind _ hx,
        (display_tokens r f3 p3 rest).2 he hr, ← f1]
      simp only [dtoks]
      rw [addDot_append (by simp), addDot_cons (dtoks_ne r)]
      simp
  | .paren e =>
    refine ⟨fun hc => ?_, fun he => by cases he⟩
    simp only [Expr.display, dtoks, List.append_assoc]
    rw [seg_fixed .Lp _ rfl (fun _ => rfl), (display_tokens e hf hp _).1 ((closed_lit ')' [] (by decide) (by decide)).apart e),
      seg_fixed .Rp _ rfl (fun _ => rfl)]
    simp
  | .ifE c t e =>
    refine ⟨fun hc => ?_, fun he => by cases he⟩
    obtain ⟨f1, f2, f3⟩ := hf
    obtain ⟨p1, p2, p3⟩ := hp
    have e1 : (Expr.ifE c t e).display ++ rest = c!"if" ++ ' ' :: (c!"(" ++ (c.display ++ (c!")" ++ ' ' :: (c!"{" ++ ' ' ::
        (joinStr c!";" (Expr.displayList t) ++ ((if e.isEmpty then [] else c!"} else { " ++ joinStr c!";" (Expr.displayList e)) ++
          (c!" }" ++ rest))))))) := by
      simp [Expr.display]
    rw [e1, seg_fixed_blank .If _ rfl, seg_fixed .Lp _ rfl (fun _ => rfl),
      (display_tokens c f1 p1 _).1 ((closed_lit ')' [] (by decide) (by decide)).apart c), seg_fixed_blank .Rp _ rfl,
      seg_fixed_blank .Lb _ rfl]
    have tail : segment (c!" }" ++ rest) = fixTok .Rb :: segment rest := by
      rw [show c!" }" ++ rest = ' ' :: (c!"}" ++ rest) from rfl, seg_blank, seg_fixed .Rb _ rfl (fun _ => rfl)]
    have second := displaySeq_tokens e f3 p3 (c!" }" ++ rest) (closed_lit ' ' c!"}" (by decide) (by decide))
    cases e with
    | nil =>
      simp only [List.isEmpty_nil, if_true, List.nil_append]
      rw [displaySeq_tokens t f2 p2 _ (closed_lit ' ' c!"}" (by decide) (by decide)), tail]
      simp [dtoks]
    | cons a b =>
      simp only [List.isEmpty_cons, Bool.false_eq_true, if_false, List.append_assoc]
      rw [displaySeq_tokens t f2 p2 _ (closed_lit '}' _ (by decide) (by decide)),
        show ∀ x, c!"} else { " ++ x = c!"}" ++ ' ' :: (c!"else" ++ ' ' :: (c!"{" ++ ' ' :: x)) from fun _ => rfl,
        seg_fixed_blank .Rb _ rfl, seg_fixed_blank .Else _ rfl, seg_fixed_blank .Lb _ rfl, second, tail]
      simp [dtoks]
  | .call f es =>
    refine ⟨fun hc => ?_, fun he => by cases he⟩
    simp only [Expr.display, dtoks, List.append_assoc]
    rw [seg_ident hf.1 (by rintro c r ⟨⟩; decide), seg_fixed .Lp _ rfl (fun _ => rfl),
      displayList_tokens es hf.2 hp _ (closed_lit ')' [] (by decide) (by decide)), seg_fixed .Rp _ rfl (fun _ => rfl)]
    simp
termination_by structural e
theorem displayList_tokens (es : List (Expr F)) (hf : FormedAll es) (hp : FloatsList Legible es) (rest : Str) (hc : EndsText rest) :
    segment (joinStr c!", " (Expr.displayList es) ++ rest) = joinToks (fixTok .Comma) (dtoksList es) ++ segment rest := by
  match es with
  | [] => rfl
  | e :: es =>
    have ih := displayList_tokens es hf.2 hp.2 rest hc
    have he := fun x => (display_tokens e hf.1 hp.1 x).1
    cases es with
    | nil => exact he rest (hc.apart e)
    | cons a es =>
      simp only [Expr.displayList, joinStr, dtoksList, joinToks, List.append_assoc, List.cons_append] at ih ⊢
      rw [he _ ((closed_cons (by decide) (by decide)).apart e),
        show ∀ x, ',' :: ' ' :: ([] ++ x) = c!"," ++ ' ' :: x from fun _ => rfl, seg_fixed_blank .Comma _ rfl, ih]
termination_by structural es
theorem displaySeq_tokens (es : List (Expr F)) (hf : FormedAll es) (hp : FloatsList Legible es) (rest : Str) (hc : EndsText rest) :
    segment (joinStr c!";" (Expr.displayList es) ++ rest) = joinToks (fixTok .Semi) (dtoksList es) ++ segment rest := by
  match es with
  | [] => rfl
  | e :: es =>
    have ih := displaySeq_tokens es hf.2 hp.2 rest hc
    have he := fun x => (display_tokens e hf.1 hp.1 x).1
    cases es with
    | nil => exact he rest (hc.apart e)
    | cons a es =>
      simp only [Expr.displayList, joinStr, dtoksList, joinToks, List.append_assoc, List.cons_append] at ih ⊢
      rw [he _ ((closed_cons (by decide) (by decide)).apart e),
        show ∀ x, ';' :: ([] ++ x) = c!";" ++ x from fun _ => rfl, seg_fixed .Semi _ rfl (fun _ => rfl), ih]
termination_by structural es
theorem displayPairs_tokens (ps : List (Expr F × Expr F)) (hf : FormedPairs ps) (hp : FloatsPairs Legible ps) (rest : Str) (hc : EndsText rest) :
    segment (joinStr c!", " (Expr.displayPairs ps) ++ rest) = joinToks (fixTok .Comma) (dtoksPairs ps) ++ segment rest := by
  match ps with
  | [] => rfl
  | (k, v) :: ps =>
    have ih := displayPairs_tokens ps hf.2.2 hp.2.2 rest hc
    have hk := fun x => (display_tokens k hf.1 hp.1 x).1
    have hv := fun x => (display_tokens v hf.2.1 hp.2.1 x).1
    cases ps with
    | nil =>
      simp only [Expr.displayPairs, joinStr, dtoksPairs, joinToks, List.append_assoc, List.cons_append]
      rw [hk _ ((closed_cons (by decide) (by decide)).apart k),
        show ∀ x, ':' :: ' ' :: ([] ++ x) = c!":" ++ ' ' :: x from fun _ => rfl, seg_fixed_blank .Colon _ rfl, hv rest (hc.apart v)]
    | cons p ps =>
      obtain ⟨k2, v2⟩ := p
      simp only [Expr.displayPairs, joinStr, dtoksPairs, joinToks, List.append_assoc, List.cons_append] at ih ⊢
      rw [hk _ ((closed_cons (by decide) (by decide)).apart k),
        show ∀ x, ':' :: ' ' :: ([] ++ x) = c!":" ++ ' ' :: x from fun _ => rfl, seg_fixed_blank .Colon _ rfl,
        hv _ ((closed_cons (by decide) (by decide)).apart v),
        show ∀ x, ',' :: ' ' :: ([] ++ x) = c!"," ++ ' ' :: x from fun _ => rfl, seg_fixed_blank .Comma _ rfl, ih]
termination_by structural ps
end

end Am
