import Verif.Proofs.Lexer
/-! # C01-C05: the lexer -/
namespace Am
open Spec

/-- C01. `segment` always returns (it is a total function whose fuel is proved sufficient in `segmentAux_fuel`); the list ends in
the end-of-file token and no other token is one. -/
theorem c01_lex_total (s : Str) :
    ∃ init, segment s = init ++ [Token.eof] ∧ ∀ t ∈ init, t.kind ≠ .Eof := by
  rcases segment_layout s with ⟨b, h⟩
  rcases layout_tokens_ok h with ⟨init, e, hi⟩
  exact ⟨init, e, fun t ht hk => by have := hi t ht; rw [TokenOk, hk] at this; exact this⟩

/-- C01: the loop never runs out of characters to consume before the text ends: any larger bound gives the same tokens. -/
theorem c01_lex_fuel (s : Str) (n : Nat) (h : s.length ≤ n) : segmentAux n s = segment s :=
  segmentAux_fuel n s.length s h (Nat.le_refl _)

example : segment c!"let x = 5" =
    [⟨.Let, c!"let"⟩, ⟨.Ident, c!"x"⟩, ⟨.Assign, c!"="⟩, ⟨.Integer, c!"5"⟩] ++ [Token.eof] := by decide

/-- C02. The text is the spelling of its tokens with whitespace between them, and nothing else; an unterminated quote can only
come last. -/
theorem c02_lex_lossless (s : Str) : ∃ closed, Layout closed s (segment s) := segment_layout s

/-- C02: the layout determines the tokens, so the specification has exactly one solution. -/
theorem c02_layout_unique (s : Str) (b : Bool) (ts : List Token) (h : Layout b s ts) : ts = segment s :=
  (layout_segment h).symm

example : Layout false c!" a \"bc" [⟨.Ident, c!"a"⟩, ⟨.String, c!"bc"⟩, Token.eof] :=
  .tok false c!" " ⟨.Ident, c!"a"⟩ c!" \"bc" _ (by decide) ⟨⟨'a', [], rfl, by decide, by decide⟩, by decide⟩
    (by rintro c r ⟨⟩; decide) (.openString c!" " c!"bc" (by decide) (by decide))

/-- C03. Writing the tokens of any text with whitespace between them, however much and of whatever kind, re-lexes to the same
tokens. -/
theorem c03_relex (s text : Str) (h : Spaced (segment s) text) : segment text = segment s := by
  rcases segment_layout s with ⟨b, hl⟩
  exact spaced_segment h (layout_tokens_ok hl)

/-- One way to write tokens out: a blank after each. -/
def writeOut : List Token → Str
  | [] => []
  | [_] => []
  | t :: u :: l => spell t ++ (c!" " ++ writeOut (u :: l))

theorem spaced_ws {ts : List Token} {s : Str} (h : Spaced ts s) (c : Char) (hc : isWs c = true) : Spaced ts (c :: s) := by
  have cons : ∀ ws, AllWs ws → AllWs (c :: ws) := fun ws h x hx => by
    rcases List.mem_cons.1 hx with rfl | hx
    · exact hc
    · exact h x hx
  cases h with
  | eof _ hws => exact .eof _ (cons _ hws)
  | tok ws t ts rest hws h1 h2 => exact .tok (c :: ws) t ts rest (cons _ hws) h1 h2

theorem writeOut_spaced (init : List Token) : Spaced (init ++ [Token.eof]) (writeOut (init ++ [Token.eof])) := by
  induction init with
  | nil => exact .eof [] (by simp [AllWs])
  | cons t init ih =>
    cases hl : init ++ [Token.eof] with
    | nil => simp at hl
    | cons u l =>
      rw [hl] at ih
      simp only [List.cons_append, hl, writeOut]
      exact .tok [] t (u :: l) (c!" " ++ writeOut (u :: l)) (by simp [AllWs])
        (by rintro c r ⟨⟩; decide) (spaced_ws ih ' ' (by decide))

/-- C03 is not vacuous: every text's tokens can be written out, and doing so re-lexes to them. -/
theorem c03_writeOut (s : Str) : Spaced (segment s) (writeOut (segment s)) ∧ segment (writeOut (segment s)) = segment s := by
  rcases c01_lex_total s with ⟨init, e, -⟩
  have h : Spaced (segment s) (writeOut (segment s)) := by rw [e]; exact writeOut_spaced init
  exact ⟨h, c03_relex s _ h⟩

example : writeOut (segment c!"a+b") = c!"a + b " := by decide

/-- C04. Every token but the last is well formed: see `TokenOk` for what that says of words, numbers and operators. -/
theorem c04_tokens_ok (s : Str) (t : Token) (h : t ∈ segment s) : t = Token.eof ∨ TokenOk t := by
  rcases segment_layout s with ⟨b, hl⟩
  rcases layout_tokens_ok hl with ⟨init, e, hi⟩
  rw [e, List.mem_append] at h
  rcases h with h | h
  · exact .inr (hi t h)
  · simp at h; exact .inl h

/-- The kind a keyword text must have. -/
def keywordKind : List (Str × Kind) :=
  [(c!"true", .True), (c!"false", .False), (c!"request", .Request), (c!"let", .Let), (c!"if", .If), (c!"else", .Else),
   (c!"test", .Test)]

/-- The kinds of word tokens. -/
def wordKinds : List Kind := [.Ident, .True, .False, .Request, .Let, .If, .Else, .Test]

/-- C04. A word token has a keyword kind exactly when its text is that keyword; an identifier is a word and not a keyword. -/
theorem c04_keywords (s : Str) (t : Token) (h : t ∈ segment s) (hk : t.kind ∈ wordKinds) :
    (∀ w k, (w, k) ∈ keywordKind → (t.kind = k ↔ t.literal = w)) ∧
    (t.kind = .Ident → IsWord t.literal ∧ t.literal ∉ keywords) := by
  have ht : TokenOk t := by
    rcases c04_tokens_ok s t h with rfl | ht
    · simp [wordKinds, Token.eof] at hk
    · exact ht
  rcases t with ⟨k, l⟩
  refine ⟨?_, ?_⟩
  · intro w k' hm
    simp only [keywordKind, List.mem_cons, List.not_mem_nil, or_false, Prod.mk.injEq] at hm
    simp only [wordKinds, List.mem_cons, List.not_mem_nil, or_false] at hk
    rcases hk with rfl | rfl | rfl | rfl | rfl | rfl | rfl | rfl
    · rcases ht with ⟨-, hn⟩
      simp only [keywords, List.mem_cons, List.not_mem_nil, or_false, not_or] at hn
      rcases hm with ⟨rfl, rfl⟩ | ⟨rfl, rfl⟩ | ⟨rfl, rfl⟩ | ⟨rfl, rfl⟩ | ⟨rfl, rfl⟩ | ⟨rfl, rfl⟩ | ⟨rfl, rfl⟩ <;> simp [hn]
    all_goals
      simp only [TokenOk, fixedText, Option.some.injEq] at ht
      subst ht
      rcases hm with ⟨rfl, rfl⟩ | ⟨rfl, rfl⟩ | ⟨rfl, rfl⟩ | ⟨rfl, rfl⟩ | ⟨rfl, rfl⟩ | ⟨rfl, rfl⟩ | ⟨rfl, rfl⟩ <;> simp
  · rintro rfl; exact ht

/-- C04. Number tokens. -/
theorem c04_numbers (s : Str) (t : Token) (h : t ∈ segment s) :
    (t.kind = .Integer → t.literal ≠ [] ∧ ∀ c ∈ t.literal, isDigit c = true) ∧
    (t.kind = .Float → (∃ c r, t.literal = c :: r ∧ isDigit c = true) ∧
      (∀ c ∈ t.literal, isDigit c = true ∨ c = '.') ∧ '.' ∈ t.literal) := by
  rcases c04_tokens_ok s t h with rfl | ht
  · simp [Token.eof]
  rcases t with ⟨k, l⟩
  exact ⟨by rintro rfl; exact ht, by rintro rfl; exact ht⟩

/-- C04, maximality: wherever a token stands in the source, the character after it does not extend it (part of `Layout`).
Stated for a word or number in the middle of a text: the token list of `a ++ b` splits at a word of `a` only if `b` does not
continue the word. -/
theorem c04_maximal (s : Str) : ∀ pre t post, segment s = pre ++ t :: post → t.kind ≠ .Eof →
    ∃ before rest, s = before ++ rest ∧
      ((∃ r, rest = spell t ++ r ∧ NoExt t r ∧ segment r = post) ∨ (post = [Token.eof] ∧ (rest = '"' :: t.literal ∨ rest = '`' :: t.literal))) := by
  rcases segment_layout s with ⟨b, h⟩
  revert h
  generalize segment s = ts
  intro h
  induction h with
  | eof ws _ =>
    intro pre t post he hk
    cases pre with
    | nil => simp at he; rcases he with ⟨rfl, rfl⟩; exact absurd rfl hk
    | cons => simp at he
  | tok b ws t rest ts hws h1 h2 h3 ih =>
    intro pre u post he hk
    cases pre with
    | nil =>
      simp at he; rcases he with ⟨rfl, rfl⟩
      exact ⟨ws, spell t ++ rest, by simp, .inl ⟨rest, rfl, h2, layout_segment h3⟩⟩
    | cons p pre =>
      simp at he; rcases he with ⟨rfl, he⟩
      rcases ih pre u post he hk with ⟨before, r, rfl, hr⟩
      exact ⟨ws ++ spell t ++ before, r, by simp, hr⟩
  | openString ws lit hws hl =>
    intro pre u post he hk
    cases pre with
    | nil => simp at he; rcases he with ⟨rfl, rfl⟩; exact ⟨ws, '"' :: lit, by simp, .inr ⟨rfl, .inl rfl⟩⟩
    | cons p pre =>
      simp at he; rcases he with ⟨rfl, he⟩
      cases pre with
      | nil => simp at he; rcases he with ⟨rfl, rfl⟩; exact absurd rfl hk
      | cons => simp at he
  | openTemplate ws lit hws hl =>
    intro pre u post he hk
    cases pre with
    | nil => simp at he; rcases he with ⟨rfl, rfl⟩; exact ⟨ws, '`' :: lit, by simp, .inr ⟨rfl, .inr rfl⟩⟩
    | cons p pre =>
      simp at he; rcases he with ⟨rfl, he⟩
      cases pre with
      | nil => simp at he; rcases he with ⟨rfl, rfl⟩; exact absurd rfl hk
      | cons => simp at he

example : (⟨.Ident, c!"letter"⟩ : Token) ∈ segment c!"letter 12" ∧ Kind.Ident ∈ wordKinds := by decide
example : (⟨.Float, c!"1.5"⟩ : Token) ∈ segment c!"letter 1.5;" := by decide

/-- C05 is false: the tokens of a concatenation are not the tokens of the parts. -/
theorem c05_files_merge :
    ¬ ∀ a b : Str, segment (a ++ b) = (segment a).dropLast ++ segment b := by
  intro h; exact absurd (h c!"let a = 1" c!"2") (by decide)

/-- C05: an unterminated string in one file swallows the next file, even after a newline. -/
theorem c05_quote_swallows : segment (c!"\"abc\n" ++ c!"test t { 1 }") = [⟨.String, c!"abc\ntest t { 1 }"⟩, Token.eof] := by
  decide

/-- The last character of a spelling is never white space. -/
theorem spell_last {t : Token} (h1 : TokenOk t) : ∀ d, (spell t).getLast? = some d → isWs d = false := by
  intro d hd
  rcases t with ⟨k, l⟩
  cases k
  case Eof => exact h1.elim
  case Illegal => rcases h1 with ⟨c, rfl, hw, -⟩; simp [spell] at hd; rw [← hd]; exact hw
  case Ident =>
    rcases h1 with ⟨⟨c, w, rfl, ha, hb⟩, -⟩
    simp only [spell] at hd
    rw [Bool.eq_false_iff]; intro hwd
    have hx := extends_ws ⟨.Ident, []⟩ d hwd
    simp only [extends'] at hx
    have hm := List.mem_of_getLast? hd
    rcases List.mem_cons.1 hm with rfl | hm
    · rw [isWs_of_wordStart _ ha] at hwd; cases hwd
    · rw [hb d hm] at hx; cases hx
  case Integer =>
    simp only [spell] at hd
    exact isWs_of_digit d (h1.2 d (List.mem_of_getLast? hd))
  case Float =>
    simp only [spell] at hd
    rcases h1.2.1 d (List.mem_of_getLast? hd) with h | rfl
    · exact isWs_of_digit d h
    · decide
  case String => simp only [spell, List.getLast?_concat, Option.some.injEq] at hd; rw [← hd]; decide
  case Template => simp only [spell, List.getLast?_concat, Option.some.injEq] at hd; rw [← hd]; decide
  all_goals
    simp only [TokenOk, fixedText, Option.some.injEq] at h1
    subst h1
    simp [spell] at hd
    rw [← hd]; decide

theorem layout_append {b : Bool} {s₁ s₂ : Str} {ts : List Token} {b' : Bool} {ts' : List Token} (h : Layout b s₁ ts)
    (hb : b = true) (h' : Layout b' s₂ ts') (hws : s₁ = [] ∨ ∃ p c, s₁ = p ++ [c] ∧ isWs c = true) :
    Layout b' (s₁ ++ s₂) (ts.dropLast ++ ts') := by
  induction h with
  | eof ws hw =>
    simp only [List.dropLast, List.nil_append]
    clear hws
    induction ws with
    | nil => exact h'
    | cons c ws ih =>
      exact layout_ws (ih (fun x hx => hw x (by simp [hx]))) c (hw c (by simp))
  | tok b ws t rest ts hw h1 h2 h3 ih =>
    have hne : ts ≠ [] := by
      intro e
      rcases layout_tokens_ok h3 with ⟨init, he, -⟩
      rw [e] at he; simp at he
    have hrest : ∃ p c, rest = p ++ [c] ∧ isWs c = true := by
      rcases hws with hws | ⟨p, c, he, hc⟩
      · have := TokenOk.spell_ne h1
        simp at hws; exact absurd hws.2.1 this
      · rcases List.eq_nil_or_concat rest with rfl | ⟨q, d, rfl⟩
        · -- the last character of a spelling is never whitespace
          exfalso
          rw [List.append_nil] at he
          have hl : (ws ++ spell t).getLast? = some c := by rw [he]; simp
          have hsp := TokenOk.spell_ne h1
          have hl : (spell t).getLast? = some c := by
            rw [List.getLast?_append] at hl
            cases hg : (spell t).getLast? with
            | none => rw [List.getLast?_eq_none_iff] at hg; exact absurd hg hsp
            | some d => rw [hg] at hl; simpa using hl
          rw [spell_last h1 c hl] at hc; cases hc
        · have : d = c := by
            rw [List.concat_eq_append, ← List.append_assoc] at he
            have := congrArg List.getLast? he
            simpa using this
          subst this
          exact ⟨q, d, by simp, hc⟩
    have := ih hb (.inr hrest)
    have hd : (t :: ts).dropLast = t :: ts.dropLast := by
      cases ts with
      | nil => exact absurd rfl hne
      | cons => rfl
    rw [hd, List.cons_append, List.append_assoc]
    refine .tok b' ws t (rest ++ s₂) _ hw h1 ?_ this
    intro c r hr
    rcases hrest with ⟨p, d, rfl, hd⟩
    cases p with
    | nil => simp at hr; rw [← hr.1]; exact extends_ws t d hd
    | cons x p => simp at hr; exact h2 x (p ++ [d]) rfl |> fun h => by rw [← hr.1]; exact h
  | openString => cases hb
  | openTemplate => cases hb

/-- C05, the part that holds: when the first file is empty or ends in whitespace and all its quotes are closed, the tokens of the
concatenation are the tokens of the two files. Missing from the full statement: files that do not end in whitespace, and files with
an unterminated string or template. -/
theorem c05_files_partial (a b : Str) (ts : List Token) (ha : Layout true a ts)
    (hws : a = [] ∨ ∃ p c, a = p ++ [c] ∧ isWs c = true) :
    segment (a ++ b) = (segment a).dropLast ++ segment b := by
  rcases segment_layout b with ⟨b', hb⟩
  rw [layout_segment ha]
  exact layout_segment (layout_append ha rfl hb hws)

/-- C05, a checkable case: a first file that ends in a newline and contains no quote. -/
theorem c05_files_noQuote_partial (a b : Str) (h1 : '"' ∉ a) (h2 : '`' ∉ a) (h3 : ∃ p, a = p ++ ['\n']) :
    segment (a ++ b) = (segment a).dropLast ++ segment b := by
  rcases segment_layout a with ⟨c, ha⟩
  have hc : c = true := by
    clear h3
    generalize segment a = ts at ha
    induction ha with
    | eof => rfl
    | tok b ws t rest ts _ _ _ _ ih => exact ih (fun h => h1 (by simp [h])) (fun h => h2 (by simp [h]))
    | openString => simp at h1
    | openTemplate => simp at h2
  subst hc
  rcases h3 with ⟨p, rfl⟩
  exact c05_files_partial _ b _ ha (.inr ⟨p, '\n', rfl, by decide⟩)

example : Layout true c!"a\n" [⟨.Ident, c!"a"⟩, Token.eof] :=
  .tok true [] ⟨.Ident, c!"a"⟩ c!"\n" _ (by decide) ⟨⟨'a', [], rfl, by decide, by decide⟩, by decide⟩
    (by rintro c r ⟨⟩; decide) (.eof c!"\n" (by decide))
example : segment (c!"let a = 1\n" ++ c!"2") = (segment c!"let a = 1\n").dropLast ++ segment c!"2" := by decide

end Am
