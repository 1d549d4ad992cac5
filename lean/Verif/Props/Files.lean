import Verif.Props.Lexing
import Verif.Spec.Files
set_option linter.unusedSimpArgs false
/-! # C05: exactly which files can be joined -/
namespace Am
open Spec

theorem spell_head {t : Token} (h : TokenOk t) : ∃ c r, spell t = c :: r ∧ isWs c = false := by
  rcases t with ⟨k, l⟩
  cases k
  case Eof => exact h.elim
  case Illegal => rcases h with ⟨c, rfl, hw, -⟩; exact ⟨c, [], rfl, hw⟩
  case Ident => rcases h with ⟨⟨c, w, rfl, ha, -⟩, -⟩; exact ⟨c, w, rfl, isWs_of_wordStart c ha⟩
  case Integer =>
    rcases h with ⟨hn, ha⟩
    cases l with
    | nil => exact absurd rfl hn
    | cons c r => exact ⟨c, r, rfl, isWs_of_digit c (ha c (by simp))⟩
  case Float => rcases h with ⟨⟨c, r, rfl, hd⟩, -⟩; exact ⟨c, r, rfl, isWs_of_digit c hd⟩
  case String => exact ⟨'"', _, rfl, by decide⟩
  case Template => exact ⟨'`', _, rfl, by decide⟩
  all_goals
    simp only [TokenOk, fixedText, Option.some.injEq] at h
    subst h
    exact ⟨_, _, rfl, by decide⟩

theorem append_ws_cancel {ws s b rest : Str} (hw : AllWs ws) (hs : ∃ c r, s = c :: r ∧ isWs c = false) (h : s ++ b = ws ++ s ++ rest) : b = rest := by
  obtain ⟨c, r, rfl, hc⟩ := hs
  cases ws with
  | nil => simpa using h
  | cons x ws =>
    simp only [List.cons_append, List.cons.injEq] at h
    rw [h.1, hw x (by simp)] at hc
    cases hc

theorem segment_head_noExt {t : Token} (ht : TokenOk t) {b : Str} {ts : List Token} (h : segment (spell t ++ b) = t :: ts) : NoExt t b := by
  obtain ⟨closed, hl⟩ := segment_layout (spell t ++ b)
  rw [h] at hl
  generalize hx : spell t ++ b = x at hl
  cases hl with
  | eof => exact ht.elim
  | tok _ ws t' rest ts' hw _ hn _ =>
    rw [append_ws_cancel hw (spell_head ht) hx]
    exact hn
  | openString => intro c r _; rfl
  | openTemplate => intro c r _; rfl

theorem segment_ne_nil (s : Str) : segment s ≠ [] := by
  obtain ⟨_, h⟩ := segment_layout s
  obtain ⟨init, e, -⟩ := layout_tokens_ok h
  rw [e]
  simp

/-- The kind of text a quote opens. -/
inductive QuoteKind : Char → Kind → Prop
  | string : QuoteKind '"' .String
  | template : QuoteKind '`' .Template

theorem segment_closed {q : Char} {k : Kind} (hq : QuoteKind q k) (lit r : Str) (h : q ∉ lit) :
    segment (q :: (lit ++ q :: r)) = ⟨k, lit⟩ :: segment r := by
  cases hq with
  | string =>
    have := lex_spell ⟨.String, lit⟩ r h (fun _ _ _ => rfl)
    simpa [spell] using this
  | template =>
    have := lex_spell ⟨.Template, lit⟩ r h (fun _ _ _ => rfl)
    simpa [spell] using this

theorem segment_open {q : Char} {k : Kind} (hq : QuoteKind q k) (lit : Str) (h : q ∉ lit) : segment (q :: lit) = [⟨k, lit⟩, Token.eof] := by
  cases hq with
  | string => exact layout_segment (.openString [] lit (by simp [AllWs]) h)
  | template => exact layout_segment (.openTemplate [] lit (by simp [AllWs]) h)

/-- A text that starts with a text in quotes. -/
theorem segment_quoted {q : Char} {k : Kind} (hq : QuoteKind q k) {s lit : Str} {ts : List Token} (h : segment s = ⟨k, lit⟩ :: ts) :
    q ∉ lit ∧ ∃ ws, AllWs ws ∧ ((∃ r, s = ws ++ q :: (lit ++ q :: r) ∧ segment r = ts) ∨ (s = ws ++ q :: lit ∧ ts = [Token.eof])) := by
  obtain ⟨closed, hl⟩ := segment_layout s
  rw [h] at hl
  generalize hx : (⟨k, lit⟩ : Token) :: ts = x at hl
  cases hl with
  | eof => cases hx; cases hq
  | tok _ ws t rest ts' hw ht hn hl =>
    cases hx
    cases hq with
    | string => exact ⟨ht, ws, hw, .inl ⟨rest, by simp [spell], layout_segment hl⟩⟩
    | template => exact ⟨ht, ws, hw, .inl ⟨rest, by simp [spell], layout_segment hl⟩⟩
  | openString ws l hw hl =>
    cases hx
    cases hq
    exact ⟨hl, ws, hw, .inr ⟨by simp, rfl⟩⟩
  | openTemplate ws l hw hl =>
    cases hx
    cases hq
    exact ⟨hl, ws, hw, .inr ⟨by simp, rfl⟩⟩

theorem quote_not_ws {q : Char} {k : Kind} (hq : QuoteKind q k) {ws : Str} (h : AllWs ws) : q ∉ ws := by
  intro hm
  have := h q hm
  cases hq <;> revert this <;> decide

theorem first_quote {q : Char} : ∀ {a b r s : Str}, q ∉ a → q ∉ b → a ++ q :: r = b ++ q :: s → a = b ∧ r = s
  | [], [], _, _, _, _, h => by simpa using h
  | [], y :: b, _, _, _, hb, h => by simp at h; exact absurd h.1 (fun e => hb (by simp [e]))
  | x :: a, [], _, _, ha, _, h => by simp at h; exact absurd h.1.symm (fun e => ha (by simp [e]))
  | x :: a, y :: b, _, _, ha, hb, h => by
    simp only [List.cons_append, List.cons.injEq] at h
    obtain ⟨h1, h2⟩ := first_quote (fun hm => ha (by simp [hm])) (fun hm => hb (by simp [hm])) h.2
    exact ⟨by rw [h.1, h1], h2⟩

theorem split_quote {q : Char} {s : Str} (h : q ∈ s) : ∃ a r, q ∉ a ∧ s = a ++ q :: r := by
  induction s with
  | nil => cases h
  | cons c s ih =>
    by_cases hc : c = q
    · exact ⟨[], s, by simp, by rw [hc]; rfl⟩
    · rcases List.mem_cons.1 h with rfl | h
      · exact absurd rfl hc
      · obtain ⟨a, r, ha, rfl⟩ := ih h
        refine ⟨c :: a, r, ?_, rfl⟩
        rw [List.mem_cons]
        rintro (rfl | hm)
        · exact hc rfl
        · exact ha hm

theorem twins_segment {q : Char} {k : Kind} (hq : QuoteKind q k) {r : Str} (h : Twins q r) : segment r = segment (q :: r) := by
  induction h with
  | last w hw =>
    have hn := quote_not_ws hq hw
    have h1 : segment (w ++ [q] ++ w) = [⟨k, w⟩, Token.eof] := by
      rw [List.append_assoc, segment_allWs w _ hw]
      exact segment_open hq w hn
    have h2 := segment_closed hq w w hn
    rw [h1, List.append_assoc]
    simp only [List.singleton_append]
    rw [h2]
    have := segment_allWs w [] hw
    rw [List.append_nil] at this
    rw [this, segment_nil]
  | more w r hw _ ih =>
    have hn := quote_not_ws hq hw
    have h1 : w ++ [q] ++ w ++ [q] ++ r = w ++ q :: (w ++ q :: r) := by simp
    rw [h1, segment_allWs w _ hw, segment_closed hq w r hn, segment_closed hq w _ hn, segment_allWs w _ hw, ih]

theorem segment_twins {q : Char} {k : Kind} (hq : QuoteKind q k) : ∀ (n : Nat) (r : Str), r.length ≤ n → segment r = segment (q :: r) → Twins q r := by
  intro n
  induction n with
  | zero =>
    intro r hr h
    have : r = [] := List.length_eq_zero_iff.1 (by omega)
    subst this
    rw [segment_open hq [] (by simp), segment_nil] at h
    cases h
  | succ n ih =>
    intro r hr h
    by_cases hm : q ∈ r
    · obtain ⟨x, r', hx, rfl⟩ := split_quote hm
      rw [segment_closed hq x r' hx] at h
      obtain ⟨_, ws, hw, hs⟩ := segment_quoted hq h
      rcases hs with ⟨rest, he, hs⟩ | ⟨he, hs⟩
      · obtain ⟨rfl, rfl⟩ := first_quote hx (quote_not_ws hq hw) he
        rw [segment_allWs _ _ hw] at hs
        have ht := ih rest (by simp at hr; omega) hs
        have := Twins.more (q := q) x rest hw ht
        simpa using this
      · obtain ⟨rfl, rfl⟩ := first_quote hx (quote_not_ws hq hw) he
        have := Twins.last (q := q) r' hw
        simpa using this
    · rw [segment_open hq r hm] at h
      obtain ⟨_, ws, hw, hs⟩ := segment_quoted hq h
      exfalso
      rcases hs with ⟨rest, he, hs⟩ | ⟨he, hs⟩ <;> (apply hm; rw [he]; simp)

/-- The tokens of two files written one after the other, when the first ends inside a text. -/
theorem open_join {q : Char} {k : Kind} (hq : QuoteKind q k) (lit b : Str) (h : q ∉ lit) :
    segment (q :: (lit ++ b)) = ⟨k, lit⟩ :: segment b ↔ b = [] ∨ ∃ r, b = q :: r ∧ Twins q r := by
  by_cases hm : q ∈ b
  · obtain ⟨x, r, hx, rfl⟩ := split_quote hm
    have hl : q ∉ lit ++ x := by
      rw [List.mem_append]
      rintro (hm | hm)
      · exact h hm
      · exact hx hm
    have := segment_closed hq (lit ++ x) r hl
    rw [List.append_assoc] at this
    rw [this]
    constructor
    · intro he
      simp only [List.cons.injEq, Token.mk.injEq, true_and] at he
      obtain ⟨h1, h2⟩ := he
      have : x = [] := by simpa using h1
      subst this
      exact .inr ⟨r, rfl, segment_twins hq _ r (Nat.le_refl _) h2⟩
    · rintro (he | ⟨r', he, ht⟩)
      · simp at he
      · cases x with
        | nil =>
          simp only [List.nil_append, List.cons.injEq, true_and] at he
          subst he
          rw [List.append_nil, List.nil_append, ← twins_segment hq ht]
        | cons c x =>
          simp only [List.cons_append, List.cons.injEq] at he
          exact absurd he.1.symm (fun e => hx (by simp [e]))
  · have hl : q ∉ lit ++ b := by
      rw [List.mem_append]
      rintro (hm' | hm')
      · exact h hm'
      · exact hm hm'
    rw [segment_open hq _ hl]
    constructor
    · intro he
      simp only [List.cons.injEq, Token.mk.injEq, true_and] at he
      exact .inl (by simpa using he.1)
    · rintro (rfl | ⟨r, rfl, _⟩)
      · rw [List.append_nil, segment_nil]
      · exact absurd (by simp) hm

/-- C05: every file ends in one of the ways of `FileEnd`. -/
theorem c05_ends (a : Str) : ∃ e, EndsWith a e := by
  obtain ⟨closed, h⟩ := segment_layout a
  generalize segment a = ts at h
  induction h with
  | eof ws hw => exact ⟨_, .blank ws hw⟩
  | tok closed ws t rest ts hw ht hn hl ih =>
    obtain ⟨e, ih⟩ := ih
    by_cases hr : rest = []
    · subst hr
      rw [List.append_nil]
      exact ⟨_, .last ws t hw ht⟩
    · exact ⟨e, .tok ws t rest e hw ht hn hr ih⟩
  | openString ws lit hw hl => exact ⟨_, .openString ws lit hw hl⟩
  | openTemplate ws lit hw hl => exact ⟨_, .openTemplate ws lit hw hl⟩

/-- C05, exactly when it holds: two files joined give the tokens of the first followed by those of the second if and only if the second may
follow the way the first ends. -/
theorem c05_exact_partial (a b : Str) (e : FileEnd) (h : EndsWith a e) :
    segment (a ++ b) = (segment a).dropLast ++ segment b ↔ MayFollow e b := by
  induction h with
  | blank ws hw =>
    have := segment_allWs ws [] hw
    rw [List.append_nil] at this
    rw [segment_allWs ws b hw, this, segment_nil]
    exact ⟨fun _ => trivial, fun _ => rfl⟩
  | last ws t hw ht =>
    have h0 : segment (ws ++ spell t) = [t, Token.eof] := by
      have := lex_spell t [] ht (fun _ _ h => by cases h)
      rw [List.append_nil] at this
      rw [segment_allWs ws _ hw, this, segment_nil]
    rw [h0, List.append_assoc, segment_allWs ws _ hw]
    constructor
    · intro h
      exact segment_head_noExt ht h
    · intro h
      exact lex_spell t b ht h
  | openString ws lit hw hl =>
    have h0 : segment (ws ++ ['"'] ++ lit) = [⟨.String, lit⟩, Token.eof] := by
      rw [List.append_assoc, segment_allWs ws _ hw]
      exact segment_open .string lit hl
    rw [h0, List.append_assoc, List.append_assoc, segment_allWs ws _ hw]
    exact open_join .string lit b hl
  | openTemplate ws lit hw hl =>
    have h0 : segment (ws ++ ['`'] ++ lit) = [⟨.Template, lit⟩, Token.eof] := by
      rw [List.append_assoc, segment_allWs ws _ hw]
      exact segment_open .template lit hl
    rw [h0, List.append_assoc, List.append_assoc, segment_allWs ws _ hw]
    exact open_join .template lit b hl
  | tok ws t rest e hw ht hn hr _ ih =>
    have h1 : NoExt t (rest ++ b) := by
      intro c r hc
      cases rest with
      | nil => exact absurd rfl hr
      | cons x rest =>
        simp only [List.cons_append, List.cons.injEq] at hc
        rw [← hc.1]
        exact hn x rest rfl
    have h2 : segment (ws ++ spell t ++ rest ++ b) = t :: segment (rest ++ b) := by
      rw [List.append_assoc, List.append_assoc, segment_allWs ws _ hw]
      exact lex_spell t _ ht h1
    have h3 : segment (ws ++ spell t ++ rest) = t :: segment rest := by
      rw [List.append_assoc, segment_allWs ws _ hw]
      exact lex_spell t _ ht hn
    have h4 : (t :: segment rest).dropLast = t :: (segment rest).dropLast := by
      cases hs : segment rest with
      | nil => exact absurd hs (segment_ne_nil rest)
      | cons => rfl
    rw [h2, h3, h4, List.cons_append, ← ih]
    simp

/-- Concrete cases for `c05_exact_partial`: a file that ends in a word, and one that ends in an open quote. -/
example : EndsWith c!"let ab" (.token ⟨.Ident, c!"ab"⟩) ∧ MayFollow (.token ⟨.Ident, c!"ab"⟩) c!"=1" ∧ ¬ MayFollow (.token ⟨.Ident, c!"ab"⟩) c!"c=1" := by
  refine ⟨?_, ?_, ?_⟩
  · exact .tok [] ⟨.Let, c!"let"⟩ c!" ab" _ (by simp [AllWs]) rfl (by intro c r h; cases h; decide) (by decide)
      (.last c!" " ⟨.Ident, c!"ab"⟩ (by decide) ⟨⟨'a', c!"b", rfl, by decide, by decide⟩, by decide⟩)
  · intro c r h; cases h; decide
  · intro h; exact absurd (h 'c' c!"=1" rfl) (by decide)

example : EndsWith c!"\"x" (.quote '"') ∧ MayFollow (.quote '"') c!"\" \" " ∧ ¬ MayFollow (.quote '"') c!"\" + 1" := by
  refine ⟨.openString [] c!"x" (by simp [AllWs]) (by decide), .inr ⟨_, rfl, .last c!" " (by decide)⟩, ?_⟩
  intro h
  exact absurd ((c05_exact_partial c!"\"x" c!"\" + 1" (.quote '"') (.openString [] c!"x" (by simp [AllWs]) (by decide))).2 h) (by decide)

end Am
