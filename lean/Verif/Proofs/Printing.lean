import Verif.Spec.Printing
import Verif.Proofs.ParserComplete
import Verif.Props.Parsing
/-!
# Printed expressions

`toks e`: the tokens of the printed `e`. The text lexes to them (`display_layout`), and they are a text of the published grammar for
`e` (`toks_writes`), for every expression the parser returns (`Formed`, `Grouped`) that is `Printable`.
-/
set_option linter.unusedSimpArgs false
set_option linter.unusedSectionVars false
namespace Am
open Spec
variable {F : Type} [Rt F]

/-- A token of a kind with a fixed text. -/
def fixTok (k : Kind) : Token := ⟨k, (fixedText k).getD []⟩

/-- Token lists with a separator token between them. -/
def joinToks (sep : Token) : List (List Token) → List Token
  | [] => []
  | [x] => x
  | x :: y :: l => x ++ sep :: joinToks sep (y :: l)

mutual
/-- The tokens of the printed expression. -/
def toks : Expr F → List Token
  | .int i => [⟨.Integer, intStr i.toInt⟩]
  | .float f => [⟨.Float, Rt.fdisp f⟩]
  | .bool b => [⟨if b then .True else .False, boolStr b⟩]
  | .str s => [⟨.String, s⟩]
  | .ident n => [⟨.Ident, n⟩]
  | .arr es => fixTok .Ls :: (joinToks (fixTok .Comma) (toksList es) ++ [fixTok .Rs])
  | .map ps => fixTok .Lb :: (joinToks (fixTok .Comma) (toksPairs ps) ++ [fixTok .Rb])
  | .index l i => toks l ++ fixTok .Ls :: (toks i ++ [fixTok .Rs])
  | .field l n => toks l ++ [fixTok .Dot, ⟨.Ident, n⟩]
  | .letE n v => fixTok .Let :: ⟨.Ident, n⟩ :: fixTok .Assign :: toks v
  | .unary op r => op :: toks r
  | .binary op l r => toks l ++ op :: toks r
  | .paren e => fixTok .Lp :: (toks e ++ [fixTok .Rp])
  | .ifE c t e =>
    fixTok .If :: fixTok .Lp :: (toks c ++ fixTok .Rp :: (fixTok .Lb :: (joinToks (fixTok .Semi) (toksList t) ++
      if e.isEmpty then [fixTok .Rb]
      else [fixTok .Rb] ++ fixTok .Else :: (fixTok .Lb :: (joinToks (fixTok .Semi) (toksList e) ++ [fixTok .Rb])))))
  | .call f es => ⟨.Ident, f⟩ :: fixTok .Lp :: (joinToks (fixTok .Comma) (toksList es) ++ [fixTok .Rp])
termination_by structural e => e
/-- The tokens of each expression. -/
def toksList : List (Expr F) → List (List Token)
  | [] => []
  | e :: es => toks e :: toksList es
termination_by structural l => l
/-- The tokens of each pair. -/
def toksPairs : List (Expr F × Expr F) → List (List Token)
  | [] => []
  | (k, v) :: ps => (toks k ++ fixTok .Colon :: toks v) :: toksPairs ps
termination_by structural l => l
end

mutual
/-- The leaves of the expression come from well-formed tokens. -/
def Formed : Expr F → Prop
  | .int i => 0 ≤ i.toInt
  | .float _ | .bool _ => True
  | .str s => '"' ∉ s
  | .ident n => TokenOk ⟨.Ident, n⟩
  | .arr es => FormedAll es
  | .map ps => FormedPairs ps
  | .index l i => Formed l ∧ Formed i
  | .field l n => Formed l ∧ TokenOk ⟨.Ident, n⟩
  | .letE n v => TokenOk ⟨.Ident, n⟩ ∧ Formed v
  | .unary op r => (op = fixTok .Not ∨ op = fixTok .Sub) ∧ Formed r
  | .binary op l r => op.kind.isBinary = true ∧ op = fixTok op.kind ∧ Formed l ∧ Formed r
  | .paren e => Formed e
  | .ifE c t e => Formed c ∧ FormedAll t ∧ FormedAll e
  | .call f es => TokenOk ⟨.Ident, f⟩ ∧ FormedAll es
termination_by structural e => e
/-- All expressions of a list. -/
def FormedAll : List (Expr F) → Prop
  | [] => True
  | e :: es => Formed e ∧ FormedAll es
termination_by structural l => l
/-- All keys and values. -/
def FormedPairs : List (Expr F × Expr F) → Prop
  | [] => True
  | (k, v) :: ps => Formed k ∧ Formed v ∧ FormedPairs ps
termination_by structural l => l
end

/-! ## What is read from well-formed tokens is well formed -/

theorem fixed_ok {t : Token} {x : Str} (h : TokenOk t) (hx : fixedText t.kind = some x) : t = fixTok t.kind := by
  obtain ⟨k, l⟩ := t
  simp only [fixTok]
  congr 1
  cases k <;> simp_all [TokenOk, fixedText]

theorem ident_ok {t : Token} (h : TokenOk t) (hk : t.kind = .Ident) : TokenOk ⟨.Ident, t.literal⟩ := by
  obtain ⟨k, l⟩ := t; simp at hk; subst hk; exact h

mutual
theorem reads_formed {e : Expr F} {ts : List Token} (h : Reads e ts) (hok : ∀ t ∈ ts, TokenOk t) : Formed e := by
  match h with
  | .int t i hk hp =>
    have ht := hok t (by simp)
    simp only [TokenOk, hk] at ht
    obtain ⟨h1, h2⟩ := ht
    rw [← parseI64_iff, digits_cases h1 h2] at hp
    simp only [Formed]
    split at hp
    · rename_i hle
      simp at hp
      rw [← hp, int64_exact _ hle]; omega
    · cases hp
  | .float _ _ _ _ => trivial
  | .bool _ _ _ _ => trivial
  | .str t hk =>
    have ht := hok t (by simp)
    simp only [TokenOk, hk] at ht
    exact ht
  | .ident t hk => exact ident_ok (hok t (by simp)) hk
  | .arr _ _ _ ts _ _ h1 => exact readsList_formed h1 (fun t ht => hok t (by simp [ht]))
  | .map _ _ _ ts _ _ h1 => exact readsPairs_formed h1 (fun t ht => hok t (by simp [ht]))
  | .index _ _ _ _ te ti _ _ h1 h2 =>
    exact ⟨reads_formed h1 (fun t ht => hok t (by simp [ht])), reads_formed h2 (fun t ht => hok t (by simp [ht]))⟩
  | .field _ n _ te _ hn h1 => exact ⟨reads_formed h1 (fun t ht => hok t (by simp [ht])), ident_ok (hok n (by simp)) hn⟩
  | .letE _ n _ _ tv sm _ hn _ h1 _ => exact ⟨ident_ok (hok n (by simp)) hn, reads_formed h1 (fun t ht => hok t (by simp [ht]))⟩
  | .unary op _ te hop h1 =>
    refine ⟨?_, reads_formed h1 (fun t ht => hok t (by simp [ht]))⟩
    have := hok op (by simp)
    rcases hop with hk | hk
    · left; rw [← hk]; exact fixed_ok this (by rw [hk]; rfl)
    · right; rw [← hk]; exact fixed_ok this (by rw [hk]; rfl)
  | .binary op _ _ tl tr hop h1 h2 =>
    refine ⟨hop, ?_, reads_formed h1 (fun t ht => hok t (by simp [ht])), reads_formed h2 (fun t ht => hok t (by simp [ht]))⟩
    have h3 : ∃ x, fixedText op.kind = some x := by revert hop; cases op.kind <;> simp [Kind.isBinary, fixedText]
    exact fixed_ok (hok op (by simp)) h3.choose_spec
  | .paren _ _ _ te _ _ h1 =>
    simp only [Formed]
    exact reads_formed h1 (fun t ht => hok t (by simp [ht]))
  | .ifThen _ _ _ _ _ tc tt _ _ _ h1 h2 =>
    exact ⟨reads_formed h1 (fun t ht => hok t (by simp [ht])), readsBlock_formed h2 (fun t ht => hok t (by simp [ht])), trivial⟩
  | .ifElse _ _ _ _ _ _ _ tc tt te _ _ _ _ h1 h2 h3 =>
    exact ⟨reads_formed h1 (fun t ht => hok t (by simp [ht])), readsBlock_formed h2 (fun t ht => hok t (by simp [ht])),
      readsBlock_formed h3 (fun t ht => hok t (by simp [ht]))⟩
  | .call f _ _ _ ts hf _ _ h1 => exact ⟨ident_ok (hok f (by simp)) hf, readsList_formed h1 (fun t ht => hok t (by simp [ht]))⟩
theorem readsList_formed {es : List (Expr F)} {ts : List Token} (h : ReadsList es ts) (hok : ∀ t ∈ ts, TokenOk t) : FormedAll es := by
  match h with
  | .nil => trivial
  | .last _ _ h1 => exact ⟨reads_formed h1 hok, trivial⟩
  | .cons _ _ _ _ _ _ h1 h2 =>
    exact ⟨reads_formed h1 (fun t ht => hok t (by simp [ht])), readsList_formed h2 (fun t ht => hok t (by simp [ht]))⟩
theorem readsPairs_formed {ps : List (Expr F × Expr F)} {ts : List Token} (h : ReadsPairs ps ts) (hok : ∀ t ∈ ts, TokenOk t) :
    FormedPairs ps := by
  match h with
  | .nil => trivial
  | .last _ _ _ _ _ _ h1 h2 =>
    exact ⟨reads_formed h1 (fun t ht => hok t (by simp [ht])), reads_formed h2 (fun t ht => hok t (by simp [ht])), trivial⟩
  | .cons _ _ _ _ _ _ _ _ _ _ h1 h2 h3 =>
    exact ⟨reads_formed h1 (fun t ht => hok t (by simp [ht])), reads_formed h2 (fun t ht => hok t (by simp [ht])),
      readsPairs_formed h3 (fun t ht => hok t (by simp [ht]))⟩
theorem readsBlock_formed {es : List (Expr F)} {ts : List Token} (h : ReadsBlock es ts) (hok : ∀ t ∈ ts, TokenOk t) : FormedAll es := by
  match h with
  | .mk _ _ _ _ _ _ h1 => exact readsSeq_formed h1 (fun t ht => hok t (by simp [ht]))
theorem readsSeq_formed {es : List (Expr F)} {ts : List Token} (h : ReadsSeq es ts) (hok : ∀ t ∈ ts, TokenOk t) : FormedAll es := by
  match h with
  | .nil => trivial
  | .cons _ _ _ _ _ h1 _ h2 =>
    exact ⟨reads_formed h1 (fun t ht => hok t (by simp [ht])), readsSeq_formed h2 (fun t ht => hok t (by simp [ht]))⟩
end

/-! ## The printed tokens are a text of the grammar -/

theorem printable_let {e : Expr F} : Printable e → EndsInLet e → isLet e = true := by
  induction e using Expr.rec (motive_2 := fun _ => True) (motive_3 := fun _ => True) (motive_4 := fun _ => True) with
  | letE n v => intro _ _; rfl
  | unary op r ih =>
    intro hp hl
    have := ih hp.2 hl
    rw [hp.1] at this; cases this
  | binary op l r _ ih =>
    intro hp hl
    have := ih hp.2.2.2 hl
    rw [hp.2.1] at this; cases this
  | _ => first | trivial | (intro _ hl; exact hl.elim)

theorem int_back {i : Int64} (h : 0 ≤ i.toInt) : TokenOk ⟨.Integer, intStr i.toInt⟩ ∧ parseI64 (intStr i.toInt) = some i := by
  have e : intStr i.toInt = natStr i.toInt.natAbs := by simp [intStr]; omega
  rw [e]
  refine ⟨⟨natStr_ne_nil _, natStr_digits _⟩, ?_⟩
  rw [digits_cases (natStr_ne_nil _) (natStr_digits _), decimal_natStr]
  have hlt : i.toInt < 2 ^ 63 := Int64.toInt_lt i
  rw [if_pos (by omega)]
  congr 1
  apply Int64.toInt_inj.1
  rw [int64_exact _ (by omega)]
  omega

theorem writesSeq_semi {e : Expr F} {es : List (Expr F)} {te ts : List Token} (h : Writes e te) (h2 : WritesSeq es ts) :
    WritesSeq (e :: es) (te ++ fixTok .Semi :: ts) := .semi e es _ te ts rfl h h2

mutual
theorem toks_writes (e : Expr F) (hf : Formed e) (hp : Printable e) (hg : Grouped EndsInLet e) : Writes e (toks e) := by
  match e, hg with
  | .int i, _ => exact .int _ i rfl (parseI64_iff.1 (int_back hf).2)
  | .float f, _ => exact .float _ f rfl hp.2
  | .bool b, _ => exact .bool _ b (by cases b <;> simp) rfl
  | .str s, _ => exact .str ⟨.String, s⟩ rfl
  | .ident n, _ => exact .ident ⟨.Ident, n⟩ rfl
  | .arr es, .arr _ g => exact .arr _ _ es _ rfl rfl (toks_writesList es hf hp g)
  | .map ps, .map _ g => exact .map _ _ ps _ rfl rfl (toks_writesPairs ps hf hp g)
  | .index l i, .index _ _ g1 g2 g3 =>
    obtain ⟨p0, p1, p2⟩ := hp
    refine .index _ _ l i _ _ rfl rfl (toks_writes l hf.1 p1 g1) (toks_writes i hf.2 p2 g2) ?_ p0
    rcases g3 with g | g
    · exact g
    · have := printable_let p1 g; rw [p0] at this; cases this
  | .field l n, .field _ _ g1 g3 =>
    obtain ⟨p0, _, p1⟩ := hp
    refine .field _ ⟨.Ident, n⟩ l _ rfl rfl (toks_writes l hf.1 p1 g1) ?_ p0
    rcases g3 with g | g
    · exact g
    · have := printable_let p1 g; rw [p0] at this; cases this
  | .letE n v, .letE _ _ g => exact .letE _ ⟨.Ident, n⟩ _ v _ rfl rfl rfl (toks_writes v hf.2 hp g)
  | .unary op r, .unary _ _ h1 g h2 => exact .unary op r _ h1 (toks_writes r hf.2 hp.2 g) h2 hp.1
  | .binary op l r, .binary _ _ _ h1 g1 g2 h2 h3 =>
    obtain ⟨p0, p1, p2, p3⟩ := hp
    refine .binary op l r _ _ h1 (toks_writes l hf.2.2.1 p2 g1) (toks_writes r hf.2.2.2 p3 g2) h2 ?_ p0 p1
    rcases h3 with g | g
    · exact g
    · have := printable_let p2 g; rw [p0] at this; cases this
  | .paren e, .paren _ g => exact .paren _ _ e _ rfl rfl (toks_writes e hf hp g)
  | .ifE c t e, .ifE _ _ _ g1 g2 g3 =>
    obtain ⟨f1, f2, f3⟩ := hf
    obtain ⟨p1, p2, p3⟩ := hp
    have w1 := toks_writes c f1 p1 g1
    have w2 := toks_writesSeq t f2 p2 g2
    have w3 := toks_writesSeq e f3 p3 g3
    simp only [toks]
    cases e with
    | nil => exact .ifThen _ _ _ c t _ _ rfl rfl rfl w1 (.mk _ _ _ _ rfl rfl w2)
    | cons a b =>
      have := Writes.ifElse (fixTok .If) (fixTok .Lp) (fixTok .Rp) (fixTok .Else) c t (a :: b) _ _ _
        rfl rfl rfl rfl w1 (.mk (fixTok .Lb) (fixTok .Rb) _ _ rfl rfl w2) (.mk (fixTok .Lb) (fixTok .Rb) _ _ rfl rfl w3)
      simpa using this
  | .call f es, .call _ _ g => exact .call ⟨.Ident, f⟩ _ _ es _ rfl rfl rfl (toks_writesList es hf.2 hp g)
theorem toks_writesList (es : List (Expr F)) (hf : FormedAll es) (hp : PrintableAll es) (hg : GroupedAll EndsInLet es) :
    WritesList es (joinToks (fixTok .Comma) (toksList es)) := by
  match es, hg with
  | [], _ => exact .nil
  | [e], .cons _ _ g _ => exact .last e _ (toks_writes e hf.1 hp.1 g)
  | e :: a :: es, .cons _ _ g g2 =>
    exact .cons e (a :: es) _ _ _ rfl (toks_writes e hf.1 hp.1 g) (toks_writesList (a :: es) hf.2 hp.2 g2)
theorem toks_writesSeq (es : List (Expr F)) (hf : FormedAll es) (hp : PrintableAll es) (hg : GroupedAll EndsInLet es) :
    WritesSeq es (joinToks (fixTok .Semi) (toksList es)) := by
  match es, hg with
  | [], _ => exact .nil
  | [e], .cons _ _ g _ => exact .last e _ (toks_writes e hf.1 hp.1 g)
  | e :: a :: es, .cons _ _ g g2 =>
    exact .semi e (a :: es) _ _ _ rfl (toks_writes e hf.1 hp.1 g) (toks_writesSeq (a :: es) hf.2 hp.2 g2)
theorem toks_writesPairs (ps : List (Expr F × Expr F)) (hf : FormedPairs ps) (hp : PrintablePairs ps)
    (hg : GroupedPairs EndsInLet ps) : WritesPairs ps (joinToks (fixTok .Comma) (toksPairs ps)) := by
  match ps, hg with
  | [], _ => exact .nil
  | [(k, v)], .cons _ _ _ g1 g2 _ => exact .last k v _ _ _ rfl (toks_writes k hf.1 hp.1 g1) (toks_writes v hf.2.1 hp.2.1 g2)
  | (k, v) :: a :: ps, .cons _ _ _ g1 g2 g3 =>
    have := WritesPairs.cons k v (a :: ps) (fixTok .Colon) (fixTok .Comma) _ _ _ rfl rfl (toks_writes k hf.1 hp.1 g1)
      (toks_writes v hf.2.1 hp.2.1 g2) (toks_writesPairs (a :: ps) hf.2.2 hp.2.2 g3)
    obtain ⟨a1, a2⟩ := a
    simpa [toksPairs, joinToks] using this
end

/-! ## The printed text lexes to those tokens -/

/-- The text after the expression neither extends its last token nor turns a number into a float. -/
def EndsTextFor (e : Expr F) (rest : Str) : Prop :=
  ∀ c r, rest = c :: r → isWordChar c = false ∧ (c = '.' → 14 ≤ strength e ∧ isNumber e = false ∧ isLet e = false)

/-- The text starts with a character that ends every expression. -/
def EndsText (rest : Str) : Prop := ∀ c r, rest = c :: r → isWordChar c = false ∧ c ≠ '.'

theorem EndsText.clear {rest : Str} (h : EndsText rest) (e : Expr F) : EndsTextFor e rest :=
  fun c r hr => ⟨(h c r hr).1, fun hc => absurd hc (h c r hr).2⟩

theorem closed_cons {c : Char} {r : Str} (h1 : isWordChar c = false) (h2 : c ≠ '.') : EndsText (c :: r) := by
  rintro _ _ ⟨⟩; exact ⟨h1, h2⟩

theorem closed_lit (c : Char) (x : Str) {r : Str} (h1 : isWordChar c = false) (h2 : c ≠ '.') : EndsText ((c :: x) ++ r) := closed_cons h1 h2

theorem word_digit {c : Char} (h : isWordChar c = false) : isDigit c = false := by
  simp [isWordChar] at h; exact h.1.2

theorem EndsTextFor.weaken {e e' : Expr F} {rest : Str} (h : EndsTextFor e rest) (hs : strength e < 14 ∨ isLet e = true) : EndsTextFor e' rest := by
  intro c r hr
  refine ⟨(h c r hr).1, fun hc => ?_⟩
  obtain ⟨h1, _, h2⟩ := (h c r hr).2 hc
  rcases hs with hs | hs
  · omega
  · rw [hs] at h2; cases h2

/-- A fixed token that nothing can extend. -/
theorem seg_fixed (k : Kind) {x : Str} (rest : Str) (hx : fixedText k = some x) (hc : ∀ c, extends' (fixTok k) c = false) :
    segment (x ++ rest) = fixTok k :: segment rest := by
  have h1 : TokenOk (fixTok k) := by cases k <;> simp [TokenOk, fixTok, fixedText] at hx ⊢
  have h2 : spell (fixTok k) = x := by cases k <;> simp_all [spell, fixTok, fixedText]
  have := lex_spell (fixTok k) rest h1 (fun c r _ => hc c)
  rw [h2] at this; exact this

/-- A fixed token before a blank. -/
theorem seg_fixed_blank (k : Kind) {x : Str} (rest : Str) (hx : fixedText k = some x) :
    segment (x ++ ' ' :: rest) = fixTok k :: segment rest := by
  have h1 : TokenOk (fixTok k) := by cases k <;> simp [TokenOk, fixTok, fixedText] at hx ⊢
  have h2 : spell (fixTok k) = x := by cases k <;> simp_all [spell, fixTok, fixedText]
  have := lex_spell (fixTok k) (' ' :: rest) h1 (by rintro c r ⟨⟩; cases k <;> rfl)
  rw [h2] at this; rw [this, segment_ws _ _ (by decide)]

theorem seg_ident {n : Str} {rest : Str} (h : TokenOk ⟨.Ident, n⟩) (hr : ∀ c r, rest = c :: r → isWordChar c = false) :
    segment (n ++ rest) = ⟨.Ident, n⟩ :: segment rest :=
  lex_spell ⟨.Ident, n⟩ rest h hr

theorem seg_blank (rest : Str) : segment (' ' :: rest) = segment rest := segment_ws _ _ (by decide)

theorem display_head {e : Expr F} : Formed e → Printable e → ∃ c r, e.display = c :: r ∧ c ≠ '=' := by
  have digit : ∀ {s : Str}, s ≠ [] → (∀ c ∈ s, isDigit c = true) → ∃ c r, s = c :: r ∧ c ≠ '=' := by
    intro s h1 h2
    cases s with
    | nil => exact absurd rfl h1
    | cons c r =>
      refine ⟨c, r, rfl, ?_⟩
      rintro rfl
      exact absurd (h2 '=' (by simp)) (by decide)
  have word : ∀ {n : Str}, TokenOk ⟨.Ident, n⟩ → ∃ c r, n = c :: r ∧ c ≠ '=' := by
    rintro n ⟨⟨c, r, h1, h2, _⟩, _⟩
    refine ⟨c, r, h1, ?_⟩
    rintro rfl
    exact absurd h2 (by decide)
  have app : ∀ {s t : Str}, (∃ c r, s = c :: r ∧ c ≠ '=') → ∃ c r, s ++ t = c :: r ∧ c ≠ '=' := by
    rintro s t ⟨c, r, rfl, h⟩
    exact ⟨c, r ++ t, rfl, h⟩
  have lit : ∀ (c : Char) (r t : Str), c ≠ '=' → ∃ c' r', (c :: r) ++ t = c' :: r' ∧ c' ≠ '=' := fun c r t h => ⟨c, r ++ t, rfl, h⟩
  induction e using Expr.rec (motive_2 := fun _ => True) (motive_3 := fun _ => True) (motive_4 := fun _ => True) with
  | int i =>
    intro hf _
    obtain ⟨h1, h2⟩ := (int_back hf).1
    exact digit h1 h2
  | float f =>
    intro _ hp
    obtain ⟨⟨c, r, h1, h2⟩, _⟩ := hp.1
    refine ⟨c, r, h1, ?_⟩
    rintro rfl
    exact absurd h2 (by decide)
  | bool b => intro _ _; cases b <;> exact ⟨_, _, rfl, by decide⟩
  | str s => intro _ _; exact ⟨_, _, rfl, by decide⟩
  | ident n => intro hf _; exact word hf
  | arr es => intro _ _; exact ⟨_, _, rfl, by decide⟩
  | map es => intro _ _; exact ⟨_, _, rfl, by decide⟩
  | index l i ih => intro hf hp; simp only [Expr.display]; exact app (app (app (ih hf.1 hp.2.1)))
  | field l n ih => intro hf hp; simp only [Expr.display]; exact app (app (ih hf.1 hp.2.2))
  | letE n v => intro _ _; exact ⟨_, _, rfl, by decide⟩
  | unary op r =>
    intro hf _
    simp only [Expr.display]
    rcases hf.1 with rfl | rfl <;> exact ⟨_, _, rfl, by decide⟩
  | binary op l r ih => intro hf hp; simp only [Expr.display]; exact app (app (app (app (ih hf.2.2.1 hp.2.2.1))))
  | paren e => intro _ _; exact ⟨_, _, rfl, by decide⟩
  | ifE c t e => intro _ _; exact ⟨_, _, rfl, by decide⟩
  | call f es => intro hf _; simp only [Expr.display]; exact app (app (app (word hf.1)))
  | _ => trivial

mutual
theorem display_segment (e : Expr F) (hf : Formed e) (hp : Printable e) (hg : Grouped EndsInLet e) (rest : Str) (hc : EndsTextFor e rest) :
    segment (e.display ++ rest) = toks e ++ segment rest := by
  match e, hg with
  | .int i, _ =>
    refine lex_spell ⟨.Integer, intStr i.toInt⟩ rest (int_back hf).1 fun c r hr => ?_
    obtain ⟨h1, h2⟩ := hc c r hr
    have : c ≠ '.' := fun h => by have := (h2 h).2.1; cases this
    simp [extends', word_digit h1, this]
  | .float f, _ =>
    refine lex_spell ⟨.Float, Rt.fdisp f⟩ rest hp.1 fun c r hr => ?_
    obtain ⟨h1, h2⟩ := hc c r hr
    have : c ≠ '.' := fun h => by have := (h2 h).2.1; cases this
    simp [extends', word_digit h1, this]
  | .bool b, _ =>
    cases b
    · exact lex_spell ⟨.False, c!"false"⟩ rest rfl fun c r hr => (hc c r hr).1
    · exact lex_spell ⟨.True, c!"true"⟩ rest rfl fun c r hr => (hc c r hr).1
  | .str s, _ => exact lex_spell ⟨.String, s⟩ rest hf fun c r hr => rfl
  | .ident n, _ => exact seg_ident hf fun c r hr => (hc c r hr).1
  | .arr es, .arr _ g =>
    simp only [Expr.display, toks, List.append_assoc]
    rw [seg_fixed .Ls _ rfl (fun _ => rfl), displayList_segment es hf hp g _ (closed_lit ']' [] (by decide) (by decide)),
      seg_fixed .Rs _ rfl (fun _ => rfl)]
    simp
  | .map ps, .map _ g =>
    simp only [Expr.display, toks, List.append_assoc]
    rw [seg_fixed .Lb _ rfl (fun _ => rfl), displayPairs_segment ps hf hp g _ (closed_lit '}' [] (by decide) (by decide)),
      seg_fixed .Rb _ rfl (fun _ => rfl)]
    simp
  | .index l i, .index _ _ g1 g2 g3 =>
    simp only [Expr.display, toks, List.append_assoc]
    rw [display_segment l hf.1 hp.2.1 g1 _ ((closed_lit '[' [] (by decide) (by decide)).clear l), seg_fixed .Ls _ rfl (fun _ => rfl),
      display_segment i hf.2 hp.2.2 g2 _ ((closed_lit ']' [] (by decide) (by decide)).clear i), seg_fixed .Rs _ rfl (fun _ => rfl)]
    simp
  | .field l n, .field _ _ g1 g3 =>
    simp only [Expr.display, toks, List.append_assoc]
    have h14 : 14 ≤ strength l := by
      rcases g3 with g | g
      · exact g
      · have := printable_let hp.2.2 g; rw [hp.1] at this; cases this
    rw [display_segment l hf.1 hp.2.2 g1 _ (by rintro c r ⟨⟩; exact ⟨by decide, fun _ => ⟨h14, hp.2.1, hp.1⟩⟩),
      seg_fixed .Dot _ rfl (fun _ => rfl), seg_ident hf.2 (fun c r hr => (hc c r hr).1)]
    simp
  | .letE n v, .letE _ _ g =>
    have e1 : (Expr.letE n v).display ++ rest = c!"let" ++ ' ' :: (n ++ ' ' :: (c!"=" ++ ' ' :: (v.display ++ rest))) := by
      simp [Expr.display]
    rw [e1, seg_fixed_blank .Let _ rfl, seg_ident hf.1 (by rintro c r ⟨⟩; decide), seg_blank, seg_fixed_blank .Assign _ rfl,
      display_segment v hf.2 hp g rest (hc.weaken (Or.inr rfl))]
    simp [toks]
  | .unary op r, .unary _ _ h1 g h2 =>
    simp only [Expr.display, toks, List.append_assoc]
    have ih := display_segment r hf.2 hp.2 g rest (hc.weaken (Or.inl (by simp [strength])))
    rw [List.cons_append, ← ih]
    rcases hf.1 with rfl | rfl
    · refine lex_spell (fixTok .Not) _ rfl fun c q hq => ?_
      obtain ⟨c', r', hd, hne⟩ := display_head hf.2 hp.2
      rw [hd] at hq
      simp only [List.cons_append, List.cons.injEq] at hq
      rw [← hq.1]
      simp [extends', fixTok, hne]
    · exact seg_fixed .Sub _ rfl (fun _ => rfl)
  | .binary op l r, .binary _ _ _ h1 g1 g2 h2 h3 =>
    obtain ⟨p0, p1, p2, p3⟩ := hp
    obtain ⟨f0, f1, f2, f3⟩ := hf
    have hx : fixedText op.kind = some op.literal := by
      rw [f1]
      revert f0
      simp only [fixTok]
      cases op.kind <;> simp [fixedText, Kind.isBinary]
    have e1 : (Expr.binary op l r).display ++ rest = l.display ++ ' ' :: (op.literal ++ ' ' :: (r.display ++ rest)) := by
      simp [Expr.display]
    rw [e1, display_segment l f2 p2 g1 _ ((closed_cons (by decide) (by decide)).clear l), seg_blank, seg_fixed_blank op.kind _ hx,
      display_segment r f3 p3 g2 rest (hc.weaken (Or.inl (by have := tableLevel_le op.kind; simp only [strength]; omega))), ← f1]
    simp [toks]
  | .paren e, .paren _ g =>
    simp only [Expr.display, toks, List.append_assoc]
    rw [seg_fixed .Lp _ rfl (fun _ => rfl), display_segment e hf hp g _ ((closed_lit ')' [] (by decide) (by decide)).clear e),
      seg_fixed .Rp _ rfl (fun _ => rfl)]
    simp
  | .ifE c t e, .ifE _ _ _ g1 g2 g3 =>
    obtain ⟨f1, f2, f3⟩ := hf
    obtain ⟨p1, p2, p3⟩ := hp
    have e1 : (Expr.ifE c t e).display ++ rest = c!"if" ++ ' ' :: (c!"(" ++ (c.display ++ (c!")" ++ ' ' :: (c!"{" ++ ' ' ::
        (joinStr c!";" (Expr.displayList t) ++ ((if e.isEmpty then [] else c!"} else { " ++ joinStr c!";" (Expr.displayList e)) ++
          (c!" }" ++ rest))))))) := by
      simp [Expr.display]
    rw [e1, seg_fixed_blank .If _ rfl, seg_fixed .Lp _ rfl (fun _ => rfl),
      display_segment c f1 p1 g1 _ ((closed_lit ')' [] (by decide) (by decide)).clear c), seg_fixed_blank .Rp _ rfl,
      seg_fixed_blank .Lb _ rfl]
    have tail : segment (c!" }" ++ rest) = fixTok .Rb :: segment rest := by
      rw [show c!" }" ++ rest = ' ' :: (c!"}" ++ rest) from rfl, seg_blank, seg_fixed .Rb _ rfl (fun _ => rfl)]
    cases e with
    | nil =>
      simp only [List.isEmpty_nil, if_true, List.nil_append]
      rw [displaySeq_segment t f2 p2 g2 _ (closed_lit ' ' c!"}" (by decide) (by decide)), tail]
      simp [toks]
    | cons a b =>
      simp only [List.isEmpty_cons, Bool.false_eq_true, if_false, List.append_assoc]
      rw [displaySeq_segment t f2 p2 g2 _ (closed_lit '}' _ (by decide) (by decide)),
        show ∀ x, c!"} else { " ++ x = c!"}" ++ ' ' :: (c!"else" ++ ' ' :: (c!"{" ++ ' ' :: x)) from fun _ => rfl,
        seg_fixed_blank .Rb _ rfl, seg_fixed_blank .Else _ rfl, seg_fixed_blank .Lb _ rfl,
        displaySeq_segment (a :: b) f3 p3 g3 _ (closed_lit ' ' c!"}" (by decide) (by decide)), tail]
      simp [toks]
  | .call f es, .call _ _ g =>
    simp only [Expr.display, toks, List.append_assoc]
    rw [seg_ident hf.1 (by rintro c r ⟨⟩; decide), seg_fixed .Lp _ rfl (fun _ => rfl),
      displayList_segment es hf.2 hp g _ (closed_lit ')' [] (by decide) (by decide)), seg_fixed .Rp _ rfl (fun _ => rfl)]
    simp
theorem displayList_segment (es : List (Expr F)) (hf : FormedAll es) (hp : PrintableAll es) (hg : GroupedAll EndsInLet es) (rest : Str)
    (hc : EndsText rest) :
    segment (joinStr c!", " (Expr.displayList es) ++ rest) = joinToks (fixTok .Comma) (toksList es) ++ segment rest := by
  match es, hg with
  | [], _ => rfl
  | [e], .cons _ _ g _ => exact display_segment e hf.1 hp.1 g rest (hc.clear e)
  | e :: a :: es, .cons _ _ g g2 =>
    have ih := displayList_segment (a :: es) hf.2 hp.2 g2 rest hc
    simp only [Expr.displayList, joinStr, toksList, joinToks, List.append_assoc, List.cons_append] at ih ⊢
    rw [display_segment e hf.1 hp.1 g _ ((closed_cons (by decide) (by decide)).clear e),
      show ∀ x, ',' :: ' ' :: ([] ++ x) = c!"," ++ ' ' :: x from fun _ => rfl, seg_fixed_blank .Comma _ rfl, ih]
theorem displaySeq_segment (es : List (Expr F)) (hf : FormedAll es) (hp : PrintableAll es) (hg : GroupedAll EndsInLet es) (rest : Str)
    (hc : EndsText rest) :
    segment (joinStr c!";" (Expr.displayList es) ++ rest) = joinToks (fixTok .Semi) (toksList es) ++ segment rest := by
  match es, hg with
  | [], _ => rfl
  | [e], .cons _ _ g _ => exact display_segment e hf.1 hp.1 g rest (hc.clear e)
  | e :: a :: es, .cons _ _ g g2 =>
    have ih := displaySeq_segment (a :: es) hf.2 hp.2 g2 rest hc
    simp only [Expr.displayList, joinStr, toksList, joinToks, List.append_assoc, List.cons_append] at ih ⊢
    rw [display_segment e hf.1 hp.1 g _ ((closed_cons (by decide) (by decide)).clear e),
      show ∀ x, ';' :: ([] ++ x) = c!";" ++ x from fun _ => rfl, seg_fixed .Semi _ rfl (fun _ => rfl), ih]
theorem displayPairs_segment (ps : List (Expr F × Expr F)) (hf : FormedPairs ps) (hp : PrintablePairs ps)
    (hg : GroupedPairs EndsInLet ps) (rest : Str) (hc : EndsText rest) :
    segment (joinStr c!", " (Expr.displayPairs ps) ++ rest) = joinToks (fixTok .Comma) (toksPairs ps) ++ segment rest := by
  match ps, hg with
  | [], _ => rfl
  | [(k, v)], .cons _ _ _ g1 g2 _ =>
    simp only [Expr.displayPairs, joinStr, toksPairs, joinToks, List.append_assoc, List.cons_append]
    rw [display_segment k hf.1 hp.1 g1 _ ((closed_cons (by decide) (by decide)).clear k),
      show ∀ x, ':' :: ' ' :: ([] ++ x) = c!":" ++ ' ' :: x from fun _ => rfl, seg_fixed_blank .Colon _ rfl,
      display_segment v hf.2.1 hp.2.1 g2 rest (hc.clear v)]
  | (k, v) :: (k2, v2) :: ps, .cons _ _ _ g1 g2 g3 =>
    have ih := displayPairs_segment ((k2, v2) :: ps) hf.2.2 hp.2.2 g3 rest hc
    simp only [Expr.displayPairs, joinStr, toksPairs, joinToks, List.append_assoc, List.cons_append] at ih ⊢
    rw [display_segment k hf.1 hp.1 g1 _ ((closed_cons (by decide) (by decide)).clear k),
      show ∀ x, ':' :: ' ' :: ([] ++ x) = c!":" ++ ' ' :: x from fun _ => rfl, seg_fixed_blank .Colon _ rfl,
      display_segment v hf.2.1 hp.2.1 g2 _ ((closed_cons (by decide) (by decide)).clear v),
      show ∀ x, ',' :: ' ' :: ([] ++ x) = c!"," ++ ' ' :: x from fun _ => rfl, seg_fixed_blank .Comma _ rfl, ih]
end

end Am
