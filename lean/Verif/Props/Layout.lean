import Verif.Spec.Layout
import Verif.Props.Lexing
import Verif.Model.Parser
/-! # C107: exactly which gaps between tokens may be left out, and C05 exactly -/
namespace Am
open Spec

theorem wordChar_of_start {c : Char} (h : isWordStart c = true) : isWordChar c = true := by
  simp only [isWordStart, isWordChar, Bool.or_eq_true] at *
  rcases h with h | h
  · exact .inl (.inl h)
  · exact .inr h

/-- A character that is no punctuation differs from each of them. -/
theorem ne_punct {c : Char} (h : c ∉ punctuation) (x : Char) (hx : x ∈ punctuation) : (c == x) = false := by
  simp only [beq_eq_false_iff_ne]; rintro rfl; exact h hx

/-- The first character of a token says exactly whether a token directly before it is changed. -/
theorem extends_spell {t u : Token} (ht : t.kind ≠ .Eof) (hu : TokenOk u) :
    ∃ c r, spell u = c :: r ∧ isWs c = false ∧ extends' t c = needsGap t.kind u.kind := by
  rcases t with ⟨k, lit⟩
  rcases u with ⟨j, l⟩
  cases j
  case Eof => exact hu.elim
  case Illegal =>
    rcases hu with ⟨c, hl, h1, h2, h3, h4⟩
    dsimp only at hl; subst hl
    refine ⟨c, [], rfl, h1, ?_⟩
    have hw : isWordChar c = false := by
      simp only [isWordStart, Bool.or_eq_false_iff] at h4
      simp [isWordChar, h3, h4.1, h4.2]
    have n1 := ne_punct h2 '.' (by decide)
    have n2 := ne_punct h2 '=' (by decide)
    have n3 := ne_punct h2 '|' (by decide)
    have n4 := ne_punct h2 '&' (by decide)
    have n5 := ne_punct h2 '<' (by decide)
    have n6 := ne_punct h2 '>' (by decide)
    cases k <;> simp only [extends', hw, h3, n1, n2, n3, n4, n5, n6] <;> rfl
  case Ident =>
    rcases hu with ⟨⟨c, r, hl, h1, -⟩, -⟩
    dsimp only at hl; subst hl
    refine ⟨c, r, rfl, isWs_of_wordStart c h1, ?_⟩
    have hw := wordChar_of_start h1
    have hd := isDigit_of_wordStart c h1
    have h2 := notPunct_of_wordStart c h1
    have n1 := ne_punct h2 '.' (by decide)
    have n2 := ne_punct h2 '=' (by decide)
    have n3 := ne_punct h2 '|' (by decide)
    have n4 := ne_punct h2 '&' (by decide)
    have n5 := ne_punct h2 '<' (by decide)
    have n6 := ne_punct h2 '>' (by decide)
    cases k <;> simp only [extends', hw, hd, n1, n2, n3, n4, n5, n6] <;> rfl
  case Integer =>
    rcases l with _ | ⟨c, r⟩
    · exact absurd rfl hu.1
    have h1 := hu.2 c (by simp)
    refine ⟨c, r, rfl, isWs_of_digit c h1, ?_⟩
    have hw : isWordChar c = true := by simp [isWordChar, h1]
    have h2 := notPunct_of_digit c h1
    have n2 := ne_punct h2 '=' (by decide)
    have n3 := ne_punct h2 '|' (by decide)
    have n4 := ne_punct h2 '&' (by decide)
    have n5 := ne_punct h2 '<' (by decide)
    have n6 := ne_punct h2 '>' (by decide)
    cases k <;> simp only [extends', hw, h1, n2, n3, n4, n5, n6] <;> rfl
  case Float =>
    rcases hu with ⟨⟨c, r, hl, h1⟩, -⟩
    dsimp only at hl; subst hl
    refine ⟨c, r, rfl, isWs_of_digit c h1, ?_⟩
    have hw : isWordChar c = true := by simp [isWordChar, h1]
    have h2 := notPunct_of_digit c h1
    have n2 := ne_punct h2 '=' (by decide)
    have n3 := ne_punct h2 '|' (by decide)
    have n4 := ne_punct h2 '&' (by decide)
    have n5 := ne_punct h2 '<' (by decide)
    have n6 := ne_punct h2 '>' (by decide)
    cases k <;> simp only [extends', hw, h1, n2, n3, n4, n5, n6] <;> rfl
  case String => exact ⟨'"', l ++ ['"'], rfl, by decide, by cases k <;> rfl⟩
  case Template => exact ⟨'`', l ++ ['`'], rfl, by decide, by cases k <;> rfl⟩
  all_goals
    simp only [TokenOk, fixedText, Option.some.injEq] at hu
    subst hu
    refine ⟨_, _, rfl, by decide, ?_⟩
    cases k <;> first | rfl | exact absurd rfl ht

/-- If a token directly before a text is read as itself, the text does not extend it. -/
theorem lex_spell_only {t : Token} {r : Str} {ts : List Token} (ht : TokenOk t) (h : segment (spell t ++ r) = t :: ts) :
    NoExt t r ∧ segment r = ts := by
  have hk : t.kind ≠ .Eof := by intro e; rw [TokenOk, e] at ht; exact ht
  rcases extends_spell hk ht with ⟨c, w, hs, hc, -⟩
  rcases segment_layout (spell t ++ r) with ⟨b, hl⟩
  rw [h] at hl
  have noWs : ∀ (ws x : Str), AllWs ws → spell t ++ r = ws ++ x → ws = [] := by
    intro ws x hw he
    cases ws with
    | nil => rfl
    | cons a ws =>
      rw [hs] at he; simp at he
      rw [← he.1] at hw
      rw [hw c (by simp)] at hc; cases hc
  generalize hx : spell t ++ r = text at hl
  generalize ho : t :: ts = toks at hl
  cases hl with
  | eof ws hw =>
    injection ho with h4 h5
    exact absurd (by rw [h4]; rfl) hk
  | tok _ ws u rest us hw h1 h2 h3 =>
    have e := noWs ws (spell u ++ rest) hw (by simpa using hx)
    subst e
    injection ho with h4 h5
    subst h4; subst h5
    simp only [List.nil_append] at hx
    have := List.append_cancel_left hx
    subst this
    exact ⟨h2, layout_segment h3⟩
  | openString ws lit hw hq =>
    have e := noWs ws (['"'] ++ lit) hw (by simpa using hx)
    subst e
    injection ho with h4 h5
    subst h4
    have := congrArg List.length hx
    simp [spell] at this
  | openTemplate ws lit hw hq =>
    have e := noWs ws (['`'] ++ lit) hw (by simpa using hx)
    subst e
    injection ho with h4 h5
    subst h4
    have := congrArg List.length hx
    simp [spell] at this

theorem joinGaps_noExt {g : Str} {t u : Token} {l : List (Str × Token)} {last : Str} (hg : AllWs g) (ht : t.kind ≠ .Eof) (hu : TokenOk u) :
    NoExt t (joinGaps ((g, u) :: l) last) ↔ (needsGap t.kind u.kind = true → g ≠ []) := by
  rcases extends_spell ht hu with ⟨c, r, hs, -, he⟩
  simp only [joinGaps]
  cases g with
  | nil =>
    rw [hs]
    constructor
    · intro h hn
      have := h c (r ++ joinGaps l last) (by simp)
      rw [he, hn] at this; cases this
    · intro h a b hab
      simp at hab
      rw [← hab.1, he]
      cases hn : needsGap t.kind u.kind with
      | false => rfl
      | true => exact absurd rfl (h hn)
  | cons a g =>
    refine ⟨fun _ _ => by simp, fun _ x y hxy => ?_⟩
    simp at hxy
    rw [← hxy.1]
    exact extends_ws t a (hg a (by simp))

theorem last_noExt {t : Token} {last : Str} (h : AllWs last) : NoExt t last := by
  intro c r e
  subst e
  exact extends_ws t c (h c (by simp))

/-- C107. However tokens are written one after the other, with any white space or none before each of them, the text is read as these tokens exactly
if there is a gap wherever the table `needsGap` asks for one. -/
theorem c107_gaps (l : List (Str × Token)) (last : Str) (hg : ∀ p ∈ l, AllWs p.1) (hl : AllWs last) (ht : ∀ p ∈ l, TokenOk p.2) :
    segment (joinGaps l last) = l.map (·.2) ++ [Token.eof] ↔ GapsOk l := by
  induction l with
  | nil =>
    simp only [joinGaps, GapsOk, List.map_nil, List.nil_append, iff_true]
    exact layout_segment (.eof last hl)
  | cons p l ih =>
    rcases p with ⟨g, t⟩
    have hg1 := hg (g, t) (by simp)
    have ht1 : TokenOk t := ht (g, t) (by simp)
    have hk : t.kind ≠ .Eof := by intro e; rw [TokenOk, e] at ht1; exact ht1
    have ih := ih (fun p hp => hg p (by simp [hp])) (fun p hp => ht p (by simp [hp]))
    have hcut : segment (joinGaps ((g, t) :: l) last) = segment (spell t ++ joinGaps l last) := by
      simp only [joinGaps, List.append_assoc]; exact segment_allWs _ _ hg1
    rw [hcut]
    have key : NoExt t (joinGaps l last) ∧ GapsOk l ↔ GapsOk ((g, t) :: l) := by
      cases l with
      | nil => exact ⟨fun _ => trivial, fun _ => ⟨last_noExt hl, trivial⟩⟩
      | cons q l =>
        rcases q with ⟨g', u⟩
        rw [joinGaps_noExt (hg (g', u) (by simp)) hk (ht (g', u) (by simp))]
        exact Iff.rfl
    rw [← key, ← ih]
    simp only [List.map_cons, List.cons_append]
    constructor
    · exact fun h => lex_spell_only ht1 h
    · intro h; rw [lex_spell t _ ht1 h.1, h.2]

/-- The gaps of `let x=1` are as they must be, those of `letx=1` are not. -/
example : GapsOk [([], ⟨.Let, c!"let"⟩), (c!" ", ⟨.Ident, c!"x"⟩), ([], ⟨.Assign, c!"="⟩), ([], ⟨.Integer, c!"1"⟩)] := by
  simp [GapsOk, needsGap, isWordKind, isNumberKind]

example : ¬ GapsOk [([], ⟨.Let, c!"let"⟩), ([], ⟨.Ident, c!"x"⟩)] := by
  simp [GapsOk, needsGap, isWordKind]

theorem noExt_concat {t : Token} {r : Str} {q : Char} (h : NoExt t r) (hq : extends' t q = false) : NoExt t (r ++ [q]) := by
  intro c r' e
  cases r with
  | nil => simp at e; rw [← e.1]; exact hq
  | cons a r => simp at e; rw [← e.1]; exact h a r rfl

theorem layout_gaps {b : Bool} {s : Str} {ts : List Token} (h : Layout b s ts) : ∃ l last, (∀ p ∈ l, AllWs p.1) ∧ AllWs last ∧
    (∀ p ∈ l, TokenOk p.2) ∧ segment (joinGaps l last) = l.map (·.2) ++ [Token.eof] ∧ ts = l.map (·.2) ++ [Token.eof] ∧
    (s = joinGaps l last ∨ (b = false ∧ s ++ ['"'] = joinGaps l last) ∨ (b = false ∧ s ++ ['`'] = joinGaps l last)) := by
  induction h with
  | eof ws h => exact ⟨[], ws, by simp, h, by simp, layout_segment (.eof ws h), rfl, .inl rfl⟩
  | tok b ws t rest ts hw h1 h2 h3 ih =>
    rcases ih with ⟨l, last, ha, hb, hc, hx, hd, he⟩
    refine ⟨(ws, t) :: l, last, ?_, hb, ?_, ?_, ?_, ?_⟩
    · intro p hp
      rcases List.mem_cons.1 hp with rfl | hp
      · exact hw
      · exact ha p hp
    · intro p hp
      rcases List.mem_cons.1 hp with rfl | hp
      · exact h1
      · exact hc p hp
    · have hn : NoExt t (joinGaps l last) := by
        rcases he with he | ⟨-, he⟩ | ⟨-, he⟩
        · rw [← he]; exact h2
        · rw [← he]; exact noExt_concat h2 (by rcases t with ⟨k, _⟩; cases k <;> rfl)
        · rw [← he]; exact noExt_concat h2 (by rcases t with ⟨k, _⟩; cases k <;> rfl)
      simp only [joinGaps, List.append_assoc]
      rw [segment_allWs _ _ hw, lex_spell t _ h1 hn, hx]; rfl
    · rw [hd]; rfl
    · rcases he with he | ⟨hf, he⟩ | ⟨hf, he⟩
      · exact .inl (by rw [he]; rfl)
      · exact .inr (.inl ⟨hf, by simp only [List.append_assoc, he, joinGaps]⟩)
      · exact .inr (.inr ⟨hf, by simp only [List.append_assoc, he, joinGaps]⟩)
  | openString ws lit hw hq =>
    refine ⟨[(ws, ⟨.String, lit⟩)], [], by simpa using hw, by simp [AllWs], by simpa [TokenOk] using hq, ?_, rfl, .inr (.inl ⟨rfl, ?_⟩)⟩
    · rw [c107_gaps _ _ (by simpa using hw) (by simp [AllWs]) (by simpa [TokenOk] using hq)]; trivial
    · simp [joinGaps, spell]
  | openTemplate ws lit hw hq =>
    refine ⟨[(ws, ⟨.Template, lit⟩)], [], by simpa using hw, by simp [AllWs], by simpa [TokenOk] using hq, ?_, rfl, .inr (.inr ⟨rfl, ?_⟩)⟩
    · rw [c107_gaps _ _ (by simpa using hw) (by simp [AllWs]) (by simpa [TokenOk] using hq)]; trivial
    · simp [joinGaps, spell]

/-- C107: every text is written so, apart from a quotation mark that may be missing at its end. -/
theorem c107_every (s : Str) : ∃ l last, (∀ p ∈ l, AllWs p.1) ∧ AllWs last ∧ (∀ p ∈ l, TokenOk p.2) ∧ GapsOk l ∧
    segment s = l.map (·.2) ++ [Token.eof] ∧
    (s = joinGaps l last ∨ s ++ ['"'] = joinGaps l last ∨ s ++ ['`'] = joinGaps l last) := by
  rcases segment_layout s with ⟨b, h⟩
  rcases layout_gaps h with ⟨l, last, ha, hb, hc, hx, hd, he⟩
  exact ⟨l, last, ha, hb, hc, (c107_gaps l last ha hb hc).1 hx, hd, he.imp id (·.imp (·.2) (·.2))⟩

/-- The gaps of the shortest text. -/
def compactGaps : List Token → List (Str × Token)
  | [] => []
  | [t] => [([], t)]
  | t :: u :: l => match compactGaps (u :: l) with
    | [] => []
    | (_, v) :: r => ([], t) :: ((if needsGap t.kind u.kind then c!" " else []), v) :: r

theorem compactGaps_head (t : Token) (l : List Token) : ∃ r, compactGaps (t :: l) = ([], t) :: r := by
  induction l generalizing t with
  | nil => exact ⟨[], rfl⟩
  | cons u l ih =>
    rcases ih u with ⟨r, h⟩
    exact ⟨((if needsGap t.kind u.kind then c!" " else []), u) :: r, by rw [compactGaps, h]⟩

theorem compactGaps_ok (l : List Token) : (∀ p ∈ compactGaps l, AllWs p.1) ∧ GapsOk (compactGaps l) ∧ (compactGaps l).map (·.2) = l ∧
    joinGaps (compactGaps l) [] = compact l := by
  induction l with
  | nil => exact ⟨by simp [compactGaps], trivial, rfl, rfl⟩
  | cons t l ih =>
    cases l with
    | nil => exact ⟨by simp [compactGaps, AllWs], trivial, rfl, by simp [compactGaps, joinGaps, compact]⟩
    | cons u l =>
      rcases compactGaps_head u l with ⟨r, h⟩
      rw [h] at ih
      rcases ih with ⟨h1, h2, h3, h4⟩
      rw [compactGaps, h]
      dsimp only
      refine ⟨?_, ?_, ?_, ?_⟩
      · intro p hp
        rcases List.mem_cons.1 hp with rfl | hp
        · simp [AllWs]
        rcases List.mem_cons.1 hp with rfl | hp
        · dsimp only
          split
          · decide
          · simp [AllWs]
        · exact h1 p (by simp [hp])
      · refine ⟨fun hn => by simp [hn], ?_⟩
        cases r with
        | nil => trivial
        | cons q r => exact h2
      · simpa using h3
      · simp only [joinGaps, List.nil_append, List.append_assoc, compact] at h4 ⊢
        rw [h4]

theorem joinGaps_longer (l : List (Str × Token)) (last g : Str) (t : Token) (h : GapsOk ((g, t) :: l)) :
    g.length + (compact (t :: l.map (·.2))).length ≤ (joinGaps ((g, t) :: l) last).length := by
  induction l generalizing g t with
  | nil => simp [compact, joinGaps]
  | cons q l ih =>
    rcases q with ⟨g', u⟩
    have ih := ih g' u h.2
    simp only [List.map_cons, compact, joinGaps, List.length_append] at ih ⊢
    have : (if needsGap t.kind u.kind = true then c!" " else []).length ≤ g'.length := by
      split
      · next hn => have := List.length_pos_iff.2 (h.1 hn); simp; omega
      · simp
    omega

theorem joinGaps_long (l : List (Str × Token)) (last : Str) (h : GapsOk l) : (compact (l.map (·.2))).length ≤ (joinGaps l last).length := by
  cases l with
  | nil => simp [compact]
  | cons p l => exact Nat.le_trans (Nat.le_add_left _ p.1.length) (joinGaps_longer l last p.1 p.2 h)

/-- C107: a text without needless white space is read the same, and no text with these tokens is shorter, except that it may lack the last
quotation mark. -/
theorem c107_shortest (s : Str) (ts : List Token) (h : segment s = ts ++ [Token.eof]) :
    segment (compact ts) = segment s ∧ (compact ts).length ≤ s.length + 1 ∧ (Layout true s (segment s) → (compact ts).length ≤ s.length) := by
  rcases c107_every s with ⟨l, last, ha, hb, hc, hg, hd, he⟩
  have e : l.map (·.2) = ts := List.append_cancel_right (hd.symm.trans h)
  subst e
  rcases compactGaps_ok (l.map (·.2)) with ⟨h1, h2, h3, h4⟩
  have hlen := joinGaps_long l last hg
  refine ⟨?_, ?_, ?_⟩
  · rw [h, ← h4, (c107_gaps _ [] h1 (by simp [AllWs]) ?_).2 h2, h3]
    intro p hp
    have : p.2 ∈ (compactGaps (l.map (·.2))).map (·.2) := List.mem_map_of_mem hp
    rw [h3] at this
    rcases List.mem_map.1 this with ⟨q, hq, e⟩
    rw [← e]; exact hc q hq
  · rcases he with he | he | he
    · rw [he]; omega
    · have := congrArg List.length he; simp at this; omega
    · have := congrArg List.length he; simp at this; omega
  · intro hcl
    rcases layout_gaps hcl with ⟨l', last', ha', hb', hc', hx', hd', he'⟩
    have e' : l'.map (·.2) = l.map (·.2) := List.append_cancel_right (hd'.symm.trans h)
    have := joinGaps_long l' last' ((c107_gaps l' last' ha' hb' hc').1 hx')
    rcases he' with he' | ⟨hf, -⟩ | ⟨hf, -⟩
    · rw [he', ← e']; exact this
    · cases hf
    · cases hf

/-- The shortest text with the tokens of `let x = if (a <= 1.5) { \"b c\" } else { - 2 }`. -/
example : compact (segment c!"let x = if (a <= 1.5) { \"b c\" } else { - 2 } ; a = = b").dropLast = c!"let x=if(a<=1.5){\"b c\"}else{-2};a= =b" := by
  decide +kernel

/-- C107: so a text is the same program without its needless white space. -/
theorem c107_program {F : Type} [Rt F] (s : Str) (ts : List Token) (h : segment s = ts ++ [Token.eof]) :
    (parse (compact ts) : Res (Source F)) = parse s := by
  simp only [parse, parseFuel, (c107_shortest s ts h).1]

/-! ## C05 exactly -/

theorem layout_ne {b : Bool} {s : Str} {ts : List Token} (h : Layout b s ts) : ts ≠ [] := by
  cases h <;> simp

/-- C05, exactly, for a first file with all quotation marks closed: the tokens of both files together are those of the first and those of the second
unless the first ends in a token, not in white space, that the first character of the second continues. -/
theorem c05_exact (a b : Str) (ts : List Token) (ha : Layout true a ts) : segment (a ++ b) = (segment a).dropLast ++ segment b ↔
    ∀ t d c, (segment a).dropLast.getLast? = some t → a.getLast? = some d → isWs d = false → b.head? = some c → extends' t c = false := by
  rw [layout_segment ha]
  generalize hb : true = x at ha
  induction ha with
  | eof ws hw => simp [segment_allWs _ _ hw]
  | tok y ws t rest ts hw h1 h2 h3 ih =>
    have ih := ih hb
    have hne := layout_ne h3
    have hd : (t :: ts).dropLast = t :: ts.dropLast := by
      cases ts with
      | nil => exact absurd rfl hne
      | cons => rfl
    rw [hd, List.append_assoc, List.append_assoc, segment_allWs _ _ hw, List.cons_append]
    cases rest with
    | nil =>
      have e := layout_segment h3
      rw [segment_nil] at e
      subst e
      have hlast : ∃ d, (ws ++ (spell t ++ [])).getLast? = some d ∧ isWs d = false := by
        rw [List.append_nil, List.getLast?_append]
        cases hg : (spell t).getLast? with
        | none => rw [List.getLast?_eq_none_iff] at hg; exact absurd hg (TokenOk.spell_ne h1)
        | some d => exact ⟨d, rfl, spell_last h1 d hg⟩
      rcases hlast with ⟨d, hd1, hd2⟩
      constructor
      · intro h t' d' c ht' _ _ hc
        simp at ht'
        subst ht'
        have := (lex_spell_only h1 (by simpa using h)).1
        cases b with
        | nil => simp at hc
        | cons c' b => simp at hc; subst hc; exact this c' b rfl
      · intro h
        simp only [List.nil_append]
        rw [lex_spell t b h1]
        · rfl
        · intro c r e
          subst e
          exact h t d c rfl (by rw [List.append_assoc]; exact hd1) hd2 rfl
    | cons x rest =>
      have hn : NoExt t (x :: rest ++ b) := by
        intro c r e
        simp at e
        rw [← e.1]; exact h2 x rest rfl
      rw [lex_spell t _ h1 hn]
      have hl : (ws ++ spell t ++ x :: rest).getLast? = (x :: rest).getLast? := by
        rw [List.getLast?_append]
        cases hg : (x :: rest).getLast? with
        | none => simp at hg
        | some d => rfl
      rw [hl]
      simp only [List.cons.injEq, true_and]
      rw [ih]
      constructor
      · intro h t' d c ht' hd' hws hc
        cases hu : ts.dropLast with
        | cons u us =>
          rw [hu] at ht'
          exact h t' d c (by rw [hu]; simpa using ht') hd' hws hc
        | nil =>
          generalize x :: rest = z at h3 hd'
          cases h3 with
          | eof w hw' =>
            have := hw' d (List.mem_of_getLast? hd')
            rw [this] at hws; cases hws
          | tok _ _ _ _ us _ _ _ h4 =>
            have := layout_ne h4
            cases us with
            | nil => exact absurd rfl this
            | cons => simp at hu
          | openString => cases hb
          | openTemplate => cases hb
      · intro h t' d c ht' hd' hws hc
        refine h t' d c ?_ hd' hws hc
        cases hu : ts.dropLast with
        | nil => rw [hu] at ht'; simp at ht'
        | cons u us => rw [hu] at ht'; simpa using ht'
  | openString => cases hb
  | openTemplate => cases hb

/-- The lexer after an opening quotation mark. -/
theorem segment_quote {q : Char} {k : Kind} (hq : (q = '"' ∧ k = .String) ∨ (q = '`' ∧ k = .Template)) (r : Str) :
    segment (q :: r) = ⟨k, r.takeWhile (· ≠ q)⟩ :: segment ((r.dropWhile (· ≠ q)).drop 1) := by
  rcases hq with ⟨rfl, rfl⟩ | ⟨rfl, rfl⟩
  · rw [segment_tok _ _ (by decide)]; rfl
  · rw [segment_tok _ _ (by decide)]; rfl

theorem quote_notWs {q : Char} {k : Kind} (hq : (q = '"' ∧ k = .String) ∨ (q = '`' ∧ k = .Template)) : isWs q = false := by
  rcases hq with ⟨rfl, -⟩ | ⟨rfl, -⟩ <;> decide

/-- A token of the kind of a quotation begins with its mark. -/
theorem lexOne_quote {q : Char} {k : Kind} (hq : (q = '"' ∧ k = .String) ∨ (q = '`' ∧ k = .Template)) {c : Char} {cs : Str} (hc : isWs c = false)
    (h : (lexOne c cs).1.kind = k) : c = q := by
  rcases lexOne_ok c cs hc with ⟨-, h2, -⟩ | ⟨-, q', lit, hq', -, ht⟩
  · generalize lexOne c cs = p at h h2
    rcases p with ⟨⟨k', l⟩, r⟩
    dsimp only at h h2
    subst h
    rcases hq with ⟨rfl, rfl⟩ | ⟨rfl, rfl⟩
    · simp [spell] at h2; exact h2.1
    · simp [spell] at h2; exact h2.1
  · simp at ht
    rw [ht.1]
    rcases hq with ⟨rfl, rfl⟩ | ⟨rfl, rfl⟩ <;> rcases hq' with ⟨rfl, e⟩ | ⟨rfl, e⟩ <;> rw [e] at h <;> first | rfl | cases h

theorem takeWhile_mark {q : Char} (w x : Str) (h : q ∉ w) : (w ++ q :: x).takeWhile (· ≠ q) = w ∧ ((w ++ q :: x).dropWhile (· ≠ q)).drop 1 = x := by
  have h1 : ∀ y ∈ w, decide (y ≠ q) = true := by intro y hy; simp; rintro rfl; exact h hy
  have h2 : ∀ a r', q :: x = a :: r' → decide (a ≠ q) = false := by intro a r' e; injection e with e1 _; subst e1; simp
  exact ⟨takeWhile_append_stop _ w _ h1 h2, by rw [dropWhile_append_stop _ w _ h1 h2]; rfl⟩

theorem takeWhile_noMark {q : Char} (w : Str) (h : q ∉ w) : w.takeWhile (· ≠ q) = w ∧ (w.dropWhile (· ≠ q)).drop 1 = [] := by
  have h1 : ∀ y ∈ w, decide (y ≠ q) = true := by intro y hy; simp; rintro rfl; exact h hy
  have e1 := takeWhile_append_stop _ w [] h1 (by simp)
  have e2 := dropWhile_append_stop _ w [] h1 (by simp)
  rw [List.append_nil] at e1 e2
  exact ⟨e1, by rw [e2]; rfl⟩

theorem split_mark (q : Char) (s : Str) : q ∉ s ∨ ∃ w x, s = w ++ q :: x ∧ q ∉ w := by
  by_cases h : q ∈ s
  · right
    refine ⟨s.takeWhile (· ≠ q), (s.dropWhile (· ≠ q)).drop 1, ?_, notMem_takeWhile q s⟩
    have e := List.takeWhile_append_dropWhile (p := fun x => decide (x ≠ q)) (l := s)
    cases hd : s.dropWhile (· ≠ q) with
    | nil =>
      rw [hd, List.append_nil] at e
      rw [← e] at h
      exact absurd h (notMem_takeWhile q s)
    | cons a x =>
      have := dropWhile_head _ s a x hd
      simp at this
      rw [hd, this] at e
      simpa using e.symm
  · exact .inl h

theorem mark_unique {q : Char} {v w x y : Str} (h : v ++ q :: x = w ++ q :: y) (hv : q ∉ v) (hw : q ∉ w) : v = w ∧ x = y := by
  have h1 := takeWhile_mark v x hv
  have h2 := takeWhile_mark w y hw
  rw [h] at h1
  exact ⟨h1.1.symm.trans h2.1, h1.2.symm.trans h2.2⟩

theorem ws_unique {v w x y : Str} {a b : Char} (h : v ++ a :: x = w ++ b :: y) (hv : AllWs v) (hw : AllWs w) (ha : isWs a = false)
    (hb : isWs b = false) : a = b := by
  have h1 := dropWhile_append_stop isWs v (a :: x) hv (by rintro c r ⟨⟩; exact ha)
  have h2 := dropWhile_append_stop isWs w (b :: y) hw (by rintro c r ⟨⟩; exact hb)
  rw [h, h2] at h1
  injection h1 with h3 _
  exact h3.symm

theorem split_ws (s : Str) : ∃ w x, s = w ++ x ∧ AllWs w ∧ ∀ c r, x = c :: r → isWs c = false :=
  ⟨s.takeWhile isWs, s.dropWhile isWs, List.takeWhile_append_dropWhile.symm, takeWhile_all _ _, fun c r h => dropWhile_head _ _ c r h⟩

/-- One more opening quotation mark before a text changes nothing exactly for such texts. -/
theorem quote_same {q : Char} {k : Kind} (hq : (q = '"' ∧ k = .String) ∨ (q = '`' ∧ k = .Template)) (n : Nat) : ∀ r : Str, r.length ≤ n →
    (segment r = segment (q :: r) ↔ Twice q (q :: r)) := by
  induction n with
  | zero =>
    intro r hr
    have : r = [] := List.length_eq_zero_iff.1 (by omega)
    subst this
    constructor
    · intro h; rw [segment_quote hq] at h; rcases hq with ⟨rfl, rfl⟩ | ⟨rfl, rfl⟩ <;> simp [segment_nil, Token.eof] at h
    · rintro ⟨L, hL, e⟩
      cases L with
      | nil => simp at e
      | cons w L => have := congrArg List.length e; simp at this
  | succ n ih =>
    intro r hr
    rcases split_ws r with ⟨w, x, rfl, hw, hx⟩
    have hqw : ∀ v, AllWs v → q ∉ v := fun v hv h => by have := quote_notWs hq; rw [hv q h] at this; cases this
    rw [segment_allWs _ _ hw, segment_quote hq]
    cases x with
    | nil =>
      constructor
      · intro h; rcases hq with ⟨rfl, rfl⟩ | ⟨rfl, rfl⟩ <;> simp [segment_nil, Token.eof] at h
      · rintro ⟨L, hL, e⟩
        cases L with
        | nil => simp at e
        | cons v L =>
          simp at e
          have : q ∈ w := by rw [e]; simp
          exact absurd this (hqw w hw)
    | cons c x =>
      have hc := hx c x rfl
      by_cases hcq : c = q
      · subst hcq
        rcases takeWhile_mark w x (hqw w hw) with ⟨e1, e2⟩
        rw [e1, e2, segment_quote hq]
        rcases split_mark c x with hn | ⟨v, y, rfl, hv⟩
        · rcases takeWhile_noMark x hn with ⟨e3, e4⟩
          rw [e3, e4]
          constructor
          · intro h
            injection h with h1 h2
            injection h1 with _ h3
            exact ⟨[w], by simpa using hw, by simp [h3]⟩
          · rintro ⟨L, hL, e⟩
            cases L with
            | nil => simp at e
            | cons v L =>
              simp only [List.flatMap_cons, List.cons_append, List.append_assoc, List.cons.injEq, true_and] at e
              rcases mark_unique e (hqw w hw) (hqw v (hL v (by simp))) with ⟨rfl, e⟩
              cases L with
              | nil => simp at e; subst e; rw [layout_segment (.eof x hw), segment_nil]
              | cons u L => exact absurd (by rw [e]; simp) hn
        · rcases takeWhile_mark v y hv with ⟨e3, e4⟩
          rw [e3, e4]
          constructor
          · intro h
            injection h with h1 h2
            injection h1 with _ h3
            subst h3
            rw [segment_allWs _ _ hw] at h2
            rcases (ih y (by simp at hr; omega)).1 h2 with ⟨L, hL, e⟩
            exact ⟨v :: L, by simpa using ⟨hw, hL⟩, by simp [e]⟩
          · rintro ⟨L, hL, e⟩
            cases L with
            | nil => simp at e
            | cons u L =>
              simp only [List.flatMap_cons, List.cons_append, List.append_assoc, List.cons.injEq, true_and] at e
              rcases mark_unique e (hqw w hw) (hqw u (hL u (by simp))) with ⟨rfl, e⟩
              cases L with
              | nil =>
                simp at e
                have : c ∈ w := by rw [← e]; simp
                exact absurd this (hqw w hw)
              | cons z L =>
                simp only [List.flatMap_cons, List.cons_append, List.append_assoc] at e
                rcases mark_unique e hv (hqw w hw) with ⟨rfl, ey⟩
                rw [segment_allWs _ _ hw, ← (ih y (by simp at hr; omega)).2 ⟨z :: L, fun a ha => hL a (by simp [ha]), by simp [ey]⟩]
      · constructor
        · intro h
          rw [segment_tok _ _ hc] at h
          injection h with h1 h2
          exact absurd (lexOne_quote hq hc (by rw [h1])) hcq
        · rintro ⟨L, hL, e⟩
          cases L with
          | nil => simp at e
          | cons v L =>
            simp only [List.flatMap_cons, List.cons_append, List.append_assoc, List.cons.injEq, true_and] at e
            exact absurd (ws_unique e hw (hL v (by simp)) hc (quote_notWs hq)) hcq

/-- C05, exactly, for a first file that ends in an open quotation: the tokens of both files together are those of the first and those of the second
exactly if the second consists of quoted runs of white space, each followed by the same run, or is empty. -/
theorem c05_open_exact {q : Char} {k : Kind} (hq : (q = '"' ∧ k = .String) ∨ (q = '`' ∧ k = .Template)) (p lit b : Str) (ts : List Token)
    (hp : Layout true p ts) (hl : q ∉ lit) :
    segment (p ++ q :: lit ++ b) = (segment (p ++ q :: lit)).dropLast ++ segment b ↔ Twice q b := by
  have cut : ∀ x, segment (p ++ q :: x) = ts.dropLast ++ segment (q :: x) := by
    intro x
    have := (c05_exact p (q :: x) ts hp).2 (by
      intro t d c _ _ _ hc
      simp at hc
      subst hc
      rcases t with ⟨j, _⟩
      rcases hq with ⟨rfl, -⟩ | ⟨rfl, -⟩ <;> cases j <;> rfl)
    rwa [layout_segment hp] at this
  rcases takeWhile_noMark lit hl with ⟨e1, e2⟩
  have hopen : segment (p ++ q :: lit) = ts.dropLast ++ [⟨k, lit⟩, Token.eof] := by
    rw [cut, segment_quote hq, e1, e2, segment_nil]
  rw [hopen, List.append_assoc, List.cons_append, cut, segment_quote hq]
  have hdl : (ts.dropLast ++ [⟨k, lit⟩, Token.eof]).dropLast = ts.dropLast ++ [⟨k, lit⟩] := by
    rw [show ts.dropLast ++ [⟨k, lit⟩, Token.eof] = (ts.dropLast ++ [⟨k, lit⟩]) ++ [Token.eof] by simp, List.dropLast_concat]
  rw [hdl, List.append_assoc, List.append_right_inj, List.cons_append, List.nil_append]
  rcases split_mark q b with hn | ⟨w, x, rfl, hw⟩
  · rcases takeWhile_noMark (q := q) (lit ++ b) (by simp [hl, hn]) with ⟨e3, e4⟩
    rw [e3, e4]
    constructor
    · intro h
      injection h with h1 _
      injection h1 with _ h1
      have : b = [] := by simpa using h1
      exact ⟨[], by simp, by simp [this]⟩
    · rintro ⟨L, hL, e⟩
      cases L with
      | nil => simp at e; subst e; simp
      | cons u L => exact absurd (by rw [e]; simp) hn
  · rcases takeWhile_mark (q := q) (lit ++ w) x (by simp [hl, hw]) with ⟨e3, e4⟩
    rw [← List.append_assoc, e3, e4]
    constructor
    · intro h
      injection h with h1 h2
      injection h1 with _ h1
      have : w = [] := by simpa using h1
      subst this
      exact (quote_same hq x.length x (Nat.le_refl _)).1 h2
    · intro h
      have : w = [] := by
        rcases h with ⟨L, hL, e⟩
        cases L with
        | nil => simp at e
        | cons u L =>
          cases w with
          | nil => rfl
          | cons a w =>
            simp at e
            exact absurd (by rw [e.1]; simp) hw
      subst this
      rw [(quote_same hq x.length x (Nat.le_refl _)).2 h]; simp

/-- C05: every text is of one of the two sorts. -/
theorem c05_sorts (s : Str) : Layout true s (segment s) ∨ ∃ q k p lit ts, ((q = '"' ∧ k = Kind.String) ∨ (q = '`' ∧ k = Kind.Template)) ∧
    s = p ++ q :: lit ∧ q ∉ lit ∧ Layout true p ts := by
  rcases segment_layout s with ⟨b, h⟩
  cases b with
  | true => exact .inl h
  | false =>
    right
    generalize segment s = toks at h
    generalize hb : false = x at h
    induction h with
    | eof => cases hb
    | tok y ws t rest ts hw h1 h2 h3 ih =>
      rcases ih hb with ⟨q, k, p, lit, ts', hq, rfl, hn, hp⟩
      refine ⟨q, k, ws ++ spell t ++ p, lit, t :: ts', hq, by simp, hn, .tok _ _ _ _ _ hw h1 ?_ hp⟩
      intro c r e
      subst e
      exact h2 c (r ++ q :: lit) rfl
    | openString ws lit hw hn => exact ⟨'"', .String, ws, lit, _, .inl ⟨rfl, rfl⟩, by simp, hn, .eof ws hw⟩
    | openTemplate ws lit hw hn => exact ⟨'`', .Template, ws, lit, _, .inr ⟨rfl, rfl⟩, by simp, hn, .eof ws hw⟩

/-- The odd case does occur. -/
example : Twice '"' c!"\" \" " ∧ segment (c!"\"a" ++ c!"\" \" ") = (segment c!"\"a").dropLast ++ segment c!"\" \" " :=
  ⟨⟨[c!" "], by decide, by decide⟩, by decide⟩

example : segment (c!"a;" ++ c!"b") = (segment c!"a;").dropLast ++ segment c!"b" := by decide

end Am
