import Verif.Spec.Lexer
set_option linter.unusedSimpArgs false
namespace Am
open Spec

theorem takeWhile_all {α : Type} (p : α → Bool) (l : List α) : ∀ x ∈ l.takeWhile p, p x = true := by
  induction l with
  | nil => simp
  | cons a l ih =>
    intro x hx
    by_cases h : p a <;> simp [List.takeWhile_cons, h] at hx
    rcases hx with rfl | hx
    · exact h
    · exact ih x hx

theorem dropWhile_head {α : Type} (p : α → Bool) (l : List α) (a : α) (r : List α)
    (h : l.dropWhile p = a :: r) : p a = false := by
  induction l with
  | nil => simp at h
  | cons b l ih =>
    by_cases hb : p b = true
    · simp [List.dropWhile_cons, hb] at h; exact ih h
    · simp [List.dropWhile_cons, hb] at h
      rcases h with ⟨rfl, -⟩; simpa using hb

theorem takeWhile_append_stop {α : Type} (p : α → Bool) (l r : List α) (h1 : ∀ x ∈ l, p x = true)
    (h2 : ∀ a r', r = a :: r' → p a = false) : (l ++ r).takeWhile p = l := by
  induction l with
  | nil =>
    cases r with
    | nil => rfl
    | cons a r => simp [List.takeWhile_cons, h2 a r rfl]
  | cons a l ih =>
    simp [List.takeWhile_cons, h1 a (by simp)]
    exact ih (fun x hx => h1 x (by simp [hx]))

theorem dropWhile_append_stop {α : Type} (p : α → Bool) (l r : List α) (h1 : ∀ x ∈ l, p x = true)
    (h2 : ∀ a r', r = a :: r' → p a = false) : (l ++ r).dropWhile p = r := by
  induction l with
  | nil =>
    cases r with
    | nil => rfl
    | cons a r => simp [List.dropWhile_cons, h2 a r rfl]
  | cons a l ih =>
    simp [List.dropWhile_cons, h1 a (by simp)]
    exact ih (fun x hx => h1 x (by simp [hx]))

/-- Outcome of one lexer step, as the specification sees it. -/
def StepOk (text : Str) (t : Token) (r : Str) : Prop :=
  (TokenOk t ∧ text = spell t ++ r ∧ NoExt t r) ∨
  (r = [] ∧ ∃ q lit, ((q = '"' ∧ t = ⟨.String, lit⟩) ∨ (q = '`' ∧ t = ⟨.Template, lit⟩)) ∧ q ∉ lit ∧ text = q :: lit)

theorem stepOk_two (c p : Char) (two one : Kind) (cs : Str)
    (h1 : TokenOk ⟨two, [c, p]⟩) (h2 : TokenOk ⟨one, [c]⟩)
    (s1 : spell ⟨two, [c, p]⟩ = [c, p]) (s2 : spell ⟨one, [c]⟩ = [c])
    (e1 : ∀ x, extends' ⟨two, [c, p]⟩ x = false) (e2 : ∀ x, extends' ⟨one, [c]⟩ x = (x == p)) :
    StepOk (c :: cs) (lexTwo c p two one cs).1 (lexTwo c p two one cs).2 := by
  left
  unfold lexTwo
  cases cs with
  | nil => exact ⟨h2, by simp [s2], by simp [NoExt]⟩
  | cons x cs =>
    by_cases hx : x = p
    · subst hx; simp only [if_true]; exact ⟨h1, by simp [s1], by simp [NoExt, e1]⟩
    · simp only [hx, if_false]; refine ⟨h2, by simp [s2], ?_⟩
      simp only [NoExt, e2, List.cons.injEq, and_imp]
      rintro a b rfl -; simpa using hx

theorem stepOk_three (c p q : Char) (k1 k2 one : Kind) (cs : Str)
    (h1 : TokenOk ⟨k1, [c, p]⟩) (h2 : TokenOk ⟨k2, [c, q]⟩) (h3 : TokenOk ⟨one, [c]⟩)
    (s1 : spell ⟨k1, [c, p]⟩ = [c, p]) (s2 : spell ⟨k2, [c, q]⟩ = [c, q]) (s3 : spell ⟨one, [c]⟩ = [c])
    (e1 : ∀ x, extends' ⟨k1, [c, p]⟩ x = false) (e2 : ∀ x, extends' ⟨k2, [c, q]⟩ x = false)
    (e3 : ∀ x, extends' ⟨one, [c]⟩ x = (x == p || x == q)) :
    StepOk (c :: cs) (lexThree c p q k1 k2 one cs).1 (lexThree c p q k1 k2 one cs).2 := by
  left
  unfold lexThree
  cases cs with
  | nil => exact ⟨h3, by simp [s3], by simp [NoExt]⟩
  | cons x cs =>
    by_cases hx : x = p
    · subst hx; simp only [if_true]; exact ⟨h1, by simp [s1], by simp [NoExt, e1]⟩
    · by_cases hy : x = q
      · subst hy; simp only [hx, if_false, if_true]; exact ⟨h2, by simp [s2], by simp [NoExt, e2]⟩
      · simp only [hx, hy, if_false]; refine ⟨h3, by simp [s3], ?_⟩
        simp only [NoExt, e3, List.cons.injEq, and_imp]
        rintro a b rfl -; simp [hx, hy]

theorem stepOk_one (c : Char) (k : Kind) (cs : Str) (h : TokenOk ⟨k, [c]⟩) (s : spell ⟨k, [c]⟩ = [c])
    (e : ∀ x, extends' ⟨k, [c]⟩ x = false) : StepOk (c :: cs) ⟨k, [c]⟩ cs :=
  .inl ⟨h, by simp [s], by simp [NoExt, e]⟩

theorem notMem_takeWhile (q : Char) (cs : Str) : q ∉ cs.takeWhile (· ≠ q) := by
  intro h; have := takeWhile_all _ _ _ h; simp at this

theorem stepOk_quoted (q : Char) (k : Kind) (cs : Str)
    (h : (q = '"' ∧ k = .String) ∨ (q = '`' ∧ k = .Template)) :
    StepOk (q :: cs) (lexQuoted q k cs).1 (lexQuoted q k cs).2 := by
  unfold lexQuoted
  cases hd : cs.dropWhile (· ≠ q) with
  | nil =>
    right
    have : cs = cs.takeWhile (· ≠ q) := by
      have := List.takeWhile_append_dropWhile (p := fun x => decide (x ≠ q)) (l := cs)
      rw [hd] at this; simpa using this.symm
    refine ⟨by simp, q, cs.takeWhile (· ≠ q), ?_, notMem_takeWhile q cs, by rw [← this]⟩
    rcases h with ⟨rfl, rfl⟩ | ⟨rfl, rfl⟩ <;> simp
  | cons a r =>
    left
    have ha := dropWhile_head _ _ _ _ hd
    have ha : a = q := by simpa using ha
    subst ha
    have e : cs = cs.takeWhile (· ≠ a) ++ a :: r := by
      conv => lhs; rw [← List.takeWhile_append_dropWhile (p := fun x => decide (x ≠ a)) (l := cs)]
      rw [hd]
    have hn := notMem_takeWhile a cs
    rcases h with ⟨rfl, rfl⟩ | ⟨rfl, rfl⟩
    · refine ⟨hn, ?_, by simp [NoExt, extends']⟩
      simp only [spell]; conv => lhs; rw [e]
      simp
    · refine ⟨hn, ?_, by simp [NoExt, extends']⟩
      simp only [spell]; conv => lhs; rw [e]
      simp

theorem stepOk_number (c : Char) (cs : Str) (h : isDigit c = true) :
    StepOk (c :: cs) (lexNumber c cs).1 (lexNumber c cs).2 := by
  left
  unfold lexNumber
  have e : cs = cs.takeWhile isNumChar ++ cs.dropWhile isNumChar := List.takeWhile_append_dropWhile.symm
  have hall := takeWhile_all isNumChar cs
  have hhead := dropWhile_head isNumChar cs
  generalize cs.takeWhile isNumChar = w at *
  generalize cs.dropWhile isNumChar = r at *
  subst e
  by_cases hw : w.contains '.' = true
  · simp only [hw, if_true]
    refine ⟨⟨⟨c, w, rfl, h⟩, ?_, ?_⟩, by simp [spell], ?_⟩
    · intro x hx
      rcases List.mem_cons.1 hx with rfl | hx
      · exact .inl h
      · have := hall x hx; simpa [isNumChar] using this
    · simp at hw; simp [hw]
    · intro a r' hr; have := hhead a r' hr; simpa [extends', isNumChar] using this
  · simp only [hw]
    refine ⟨⟨by simp, ?_⟩, by simp [spell], ?_⟩
    · intro x hx
      rcases List.mem_cons.1 hx with rfl | hx
      · exact h
      · have := hall x hx
        simp [isNumChar] at this
        rcases this with this | rfl
        · exact this
        · simp at hw; exact absurd hx hw
    · intro a r' hr; have := hhead a r' hr; simpa [extends', isNumChar] using this

theorem stepOk_word (c : Char) (cs : Str) (h : isWordStart c = true) :
    StepOk (c :: cs) (lexWord c cs).1 (lexWord c cs).2 := by
  left
  unfold lexWord
  have e : cs = cs.takeWhile isWordChar ++ cs.dropWhile isWordChar := List.takeWhile_append_dropWhile.symm
  have hall := takeWhile_all isWordChar cs
  have hhead := dropWhile_head isWordChar cs
  generalize cs.takeWhile isWordChar = w at *
  generalize cs.dropWhile isWordChar = r at *
  subst e
  simp only [wordKind]
  have key : ∀ k : Kind, fixedText k = some (c :: w) → (∀ x, extends' ⟨k, c :: w⟩ x = isWordChar x) →
      spell ⟨k, c :: w⟩ = c :: w → (TokenOk ⟨k, c :: w⟩) →
      TokenOk ⟨k, c :: w⟩ ∧ c :: (w ++ r) = spell ⟨k, c :: w⟩ ++ r ∧ NoExt ⟨k, c :: w⟩ r := by
    intro k _ he hs hok
    refine ⟨hok, by simp [hs], ?_⟩
    intro a r' hr; rw [he]; exact hhead a r' hr
  split
  · rename_i hw; exact key _ (by rw [hw]; rfl) (fun _ => rfl) rfl (by simp [TokenOk, fixedText, hw])
  split
  · rename_i hw; exact key _ (by rw [hw]; rfl) (fun _ => rfl) rfl (by simp [TokenOk, fixedText, hw])
  split
  · rename_i hw; exact key _ (by rw [hw]; rfl) (fun _ => rfl) rfl (by simp [TokenOk, fixedText, hw])
  split
  · rename_i hw; exact key _ (by rw [hw]; rfl) (fun _ => rfl) rfl (by simp [TokenOk, fixedText, hw])
  split
  · rename_i hw; exact key _ (by rw [hw]; rfl) (fun _ => rfl) rfl (by simp [TokenOk, fixedText, hw])
  split
  · rename_i hw; exact key _ (by rw [hw]; rfl) (fun _ => rfl) rfl (by simp [TokenOk, fixedText, hw])
  split
  · rename_i hw; exact key _ (by rw [hw]; rfl) (fun _ => rfl) rfl (by simp [TokenOk, fixedText, hw])
  refine ⟨⟨⟨c, w, rfl, h, hall⟩, ?_⟩, by simp [spell], ?_⟩
  · simp only [keywords, List.mem_cons, List.not_mem_nil, or_false]
    rintro (h | h | h | h | h | h | h) <;> contradiction
  · intro a r' hr; exact hhead a r' hr

/-- `StepOk` on a pair. -/
def StepP (text : Str) (p : Token × Str) : Prop := StepOk text p.1 p.2

theorem ite_ind {text : Str} {p : Prop} {_ : Decidable p} {a b : Token × Str} (h1 : p → StepP text a) (h2 : ¬p → StepP text b) :
    StepP text (if p then a else b) := by
  split
  · exact h1 (by assumption)
  · exact h2 (by assumption)

/-- Every lexer step on a non-whitespace character consumes exactly the spelling of the token it returns. -/
theorem lexOne_ok (c : Char) (cs : Str) (hc : isWs c = false) : StepOk (c :: cs) (lexOne c cs).1 (lexOne c cs).2 := by
  change StepP (c :: cs) (lexOne c cs)
  unfold lexOne
  refine ite_ind (fun h => ?_) (fun _ => ?_)
  · subst h; exact stepOk_two _ _ _ _ _ rfl rfl rfl rfl (fun _ => rfl) (fun _ => rfl)
  refine ite_ind (fun h => ?_) (fun _ => ?_)
  · subst h; exact stepOk_two _ _ _ _ _ rfl rfl rfl rfl (fun _ => rfl) (fun _ => rfl)
  refine ite_ind (fun h => ?_) (fun _ => ?_)
  · subst h; exact stepOk_one _ _ _ rfl rfl (fun _ => rfl)
  refine ite_ind (fun h => ?_) (fun _ => ?_)
  · subst h; exact stepOk_one _ _ _ rfl rfl (fun _ => rfl)
  refine ite_ind (fun h => ?_) (fun _ => ?_)
  · subst h; exact stepOk_one _ _ _ rfl rfl (fun _ => rfl)
  refine ite_ind (fun h => ?_) (fun _ => ?_)
  · subst h; exact stepOk_one _ _ _ rfl rfl (fun _ => rfl)
  refine ite_ind (fun h => ?_) (fun _ => ?_)
  · subst h; exact stepOk_one _ _ _ rfl rfl (fun _ => rfl)
  refine ite_ind (fun h => ?_) (fun _ => ?_)
  · subst h; exact stepOk_one _ _ _ rfl rfl (fun _ => rfl)
  refine ite_ind (fun h => ?_) (fun _ => ?_)
  · subst h; exact stepOk_two _ _ _ _ _ rfl rfl rfl rfl (fun _ => rfl) (fun _ => rfl)
  refine ite_ind (fun h => ?_) (fun _ => ?_)
  · subst h; exact stepOk_two _ _ _ _ _ rfl rfl rfl rfl (fun _ => rfl) (fun _ => rfl)
  refine ite_ind (fun h => ?_) (fun _ => ?_)
  · subst h; exact stepOk_three _ _ _ _ _ _ _ rfl rfl rfl rfl rfl rfl (fun _ => rfl) (fun _ => rfl) (fun _ => rfl)
  refine ite_ind (fun h => ?_) (fun _ => ?_)
  · subst h; exact stepOk_three _ _ _ _ _ _ _ rfl rfl rfl rfl rfl rfl (fun _ => rfl) (fun _ => rfl) (fun _ => rfl)
  refine ite_ind (fun h => ?_) (fun _ => ?_)
  · subst h; exact stepOk_one _ _ _ rfl rfl (fun _ => rfl)
  refine ite_ind (fun h => ?_) (fun _ => ?_)
  · subst h; exact stepOk_one _ _ _ rfl rfl (fun _ => rfl)
  refine ite_ind (fun h => ?_) (fun _ => ?_)
  · subst h; exact stepOk_one _ _ _ rfl rfl (fun _ => rfl)
  refine ite_ind (fun h => ?_) (fun _ => ?_)
  · subst h; exact stepOk_one _ _ _ rfl rfl (fun _ => rfl)
  refine ite_ind (fun h => ?_) (fun _ => ?_)
  · subst h; exact stepOk_one _ _ _ rfl rfl (fun _ => rfl)
  refine ite_ind (fun h => ?_) (fun _ => ?_)
  · subst h; exact stepOk_one _ _ _ rfl rfl (fun _ => rfl)
  refine ite_ind (fun h => ?_) (fun _ => ?_)
  · subst h; exact stepOk_one _ _ _ rfl rfl (fun _ => rfl)
  refine ite_ind (fun h => ?_) (fun _ => ?_)
  · subst h; exact stepOk_one _ _ _ rfl rfl (fun _ => rfl)
  refine ite_ind (fun h => ?_) (fun _ => ?_)
  · subst h; exact stepOk_one _ _ _ rfl rfl (fun _ => rfl)
  refine ite_ind (fun h => ?_) (fun _ => ?_)
  · subst h; exact stepOk_one _ _ _ rfl rfl (fun _ => rfl)
  refine ite_ind (fun h => ?_) (fun _ => ?_)
  · subst h; exact stepOk_quoted _ _ _ (.inl ⟨rfl, rfl⟩)
  refine ite_ind (fun h => ?_) (fun _ => ?_)
  · subst h; exact stepOk_quoted _ _ _ (.inr ⟨rfl, rfl⟩)
  refine ite_ind (fun h => ?_) (fun _ => ?_)
  · exact stepOk_number _ _ h
  refine ite_ind (fun h => ?_) (fun _ => ?_)
  · exact stepOk_word _ _ h
  refine stepOk_one _ _ _ ⟨c, rfl, hc, ?_, Bool.eq_false_iff.2 (by assumption), Bool.eq_false_iff.2 (by assumption)⟩ rfl (fun _ => rfl)
  intro h
  simp only [punctuation, List.mem_cons, List.not_mem_nil, or_false] at h
  iterate 23 (rcases h with h | h; contradiction)
  contradiction

theorem StepOk.length {text : Str} {t : Token} {r : Str} (h : StepOk text t r) (hne : spell t ≠ []) : r.length < text.length := by
  rcases h with ⟨_, rfl, _⟩ | ⟨rfl, q, lit, _, _, rfl⟩
  · have := List.length_pos_iff.2 hne; simp; omega
  · simp

theorem TokenOk.spell_ne {t : Token} (h : TokenOk t) : spell t ≠ [] := by
  rcases t with ⟨k, l⟩
  cases k <;> simp [TokenOk, spell, fixedText, IsWord] at h ⊢ <;> (try (rintro rfl; simp_all)) <;> (try (subst h; simp))

theorem lexOne_length (c : Char) (cs : Str) (hc : isWs c = false) : (lexOne c cs).2.length ≤ cs.length := by
  have h := lexOne_ok c cs hc
  rcases h with ⟨h1, h2, _⟩ | ⟨h, _⟩
  · have := List.length_pos_iff.2 (TokenOk.spell_ne h1)
    have e := congrArg List.length h2
    simp at e; omega
  · simp [h]

/-- More fuel than characters changes nothing. -/
theorem segmentAux_fuel (n m : Nat) (s : Str) (hn : s.length ≤ n) (hm : s.length ≤ m) : segmentAux n s = segmentAux m s := by
  induction n generalizing m s with
  | zero => cases s with
    | nil => cases m <;> rfl
    | cons => simp at hn
  | succ n ih =>
    cases s with
    | nil => cases m <;> rfl
    | cons c cs =>
      cases m with
      | zero => simp at hm
      | succ m =>
        simp at hn hm
        simp only [segmentAux]
        by_cases hc : isWs c = true
        · simp only [hc, if_true]; exact ih m cs hn hm
        · have hc : isWs c = false := by simpa using hc
          have := lexOne_length c cs hc
          simp only [hc, Bool.false_eq_true, if_false]
          rw [ih m _ (by omega) (by omega)]

theorem segment_nil : segment [] = [Token.eof] := rfl

theorem segment_ws (c : Char) (cs : Str) (h : isWs c = true) : segment (c :: cs) = segment cs := by
  simp [segment, segmentAux, h]

theorem segment_tok (c : Char) (cs : Str) (h : isWs c = false) :
    segment (c :: cs) = (lexOne c cs).1 :: segment (lexOne c cs).2 := by
  simp only [segment, segmentAux, h, List.length_cons]
  rw [segmentAux_fuel cs.length (lexOne c cs).2.length _ (lexOne_length c cs h) (Nat.le_refl _)]
  simp

theorem segment_allWs (ws s : Str) (h : AllWs ws) : segment (ws ++ s) = segment s := by
  induction ws with
  | nil => rfl
  | cons c ws ih =>
    rw [List.cons_append, segment_ws _ _ (h c (by simp))]
    exact ih (fun x hx => h x (by simp [hx]))

/-- A character outside the punctuation goes to the last three branches of the lexer. -/
theorem lexOne_notPunct (c : Char) (cs : Str) (h : c ∉ punctuation) :
    lexOne c cs = if isDigit c then lexNumber c cs else if isWordStart c then lexWord c cs else (⟨.Illegal, [c]⟩, cs) := by
  have h' : ∀ x ∈ punctuation, c ≠ x := fun x hx e => h (e ▸ hx)
  unfold lexOne
  iterate 24 rw [if_neg (h' _ (by decide))]

theorem notPunct_of_digit (c : Char) (h : isDigit c = true) : c ∉ punctuation := by
  intro hc
  have : ∀ x ∈ punctuation, isDigit x = false := by decide
  rw [this c hc] at h; cases h

theorem notPunct_of_wordStart (c : Char) (h : isWordStart c = true) : c ∉ punctuation := by
  intro hc
  have : ∀ x ∈ punctuation, isWordStart x = false := by decide
  rw [this c hc] at h; cases h

theorem charRange (c a b : Char) : (decide (a ≤ c) && decide (c ≤ b)) = (decide (a.toNat ≤ c.toNat) && decide (c.toNat ≤ b.toNat)) := rfl

theorem isWs_of_wordStart (c : Char) (h : isWordStart c = true) : isWs c = false := by
  simp only [isWordStart, isAlpha, Bool.or_eq_true, charRange, Bool.and_eq_true, decide_eq_true_eq, beq_iff_eq] at h
  simp only [isWs]
  have e1 : 'A'.toNat = 65 := rfl
  have e2 : 'Z'.toNat = 90 := rfl
  have e3 : 'a'.toNat = 97 := rfl
  have e4 : 'z'.toNat = 122 := rfl
  rw [e1, e2, e3, e4] at h
  have : c.toNat = 95 ∨ (65 ≤ c.toNat ∧ c.toNat ≤ 122) := by
    rcases h with (h | h) | rfl
    · right; omega
    · right; omega
    · left; rfl
  generalize c.toNat = n at *
  simp [Bool.or_eq_false_iff]
  omega

theorem isWs_of_digit (c : Char) (h : isDigit c = true) : isWs c = false := by
  simp only [isDigit, charRange, Bool.and_eq_true, decide_eq_true_eq] at h
  have e1 : '0'.toNat = 48 := rfl
  have e2 : '9'.toNat = 57 := rfl
  rw [e1, e2] at h
  simp only [isWs]
  generalize c.toNat = n at *
  simp [Bool.or_eq_false_iff]
  omega

theorem isDigit_of_wordStart (c : Char) (h : isWordStart c = true) : isDigit c = false := by
  simp only [isWordStart, isAlpha, Bool.or_eq_true, charRange, Bool.and_eq_true, decide_eq_true_eq, beq_iff_eq] at h
  have e1 : 'A'.toNat = 65 := rfl
  have e2 : 'Z'.toNat = 90 := rfl
  have e3 : 'a'.toNat = 97 := rfl
  have e4 : 'z'.toNat = 122 := rfl
  have e5 : '0'.toNat = 48 := rfl
  have e6 : '9'.toNat = 57 := rfl
  rw [e1, e2, e3, e4] at h
  have : 58 ≤ c.toNat := by
    rcases h with (h | h) | rfl
    · omega
    · omega
    · decide
  simp only [isDigit, charRange, e5, e6]
  generalize c.toNat = n at *
  simp
  omega

theorem lex_two (c p : Char) (one : Kind) (two : Kind) (r : Str) (hw : isWs c = false)
    (hl : ∀ cs, lexOne c cs = lexTwo c p two one cs) (h : ∀ x r', r = x :: r' → (x == p) = false) :
    segment (c :: r) = ⟨one, [c]⟩ :: segment r := by
  rw [segment_tok _ _ hw, hl]
  cases r with
  | nil => rfl
  | cons x r =>
    have : x ≠ p := by simpa using h x r rfl
    simp [lexTwo, this]

theorem lex_three (c p q : Char) (k1 k2 one : Kind) (r : Str) (hw : isWs c = false)
    (hl : ∀ cs, lexOne c cs = lexThree c p q k1 k2 one cs) (h : ∀ x r', r = x :: r' → (x == p || x == q) = false) :
    segment (c :: r) = ⟨one, [c]⟩ :: segment r := by
  rw [segment_tok _ _ hw, hl]
  cases r with
  | nil => rfl
  | cons x r =>
    have : x ≠ p ∧ x ≠ q := by simpa using h x r rfl
    simp [lexThree, this]

theorem lex_quoted (q : Char) (k : Kind) (lit r : Str) (hw : isWs q = false) (hl : ∀ cs, lexOne q cs = lexQuoted q k cs)
    (h : q ∉ lit) : segment (q :: (lit ++ (q :: r))) = ⟨k, lit⟩ :: segment r := by
  rw [segment_tok _ _ hw, hl]
  have h1 : ∀ x ∈ lit, decide (x ≠ q) = true := by
    intro x hx; simp; rintro rfl; exact h hx
  have h2 : ∀ a r', q :: r = a :: r' → decide (a ≠ q) = false := by
    rintro a r' ⟨⟩; simp
  simp only [lexQuoted, takeWhile_append_stop _ _ _ h1 h2, dropWhile_append_stop _ _ _ h1 h2]
  rfl

theorem lex_word (c : Char) (w r : Str) (hc : isWordStart c = true) (hw : ∀ x ∈ w, isWordChar x = true)
    (h : ∀ x r', r = x :: r' → isWordChar x = false) :
    segment (c :: (w ++ r)) = ⟨wordKind (c :: w), c :: w⟩ :: segment r := by
  rw [segment_tok _ _ (isWs_of_wordStart c hc), lexOne_notPunct _ _ (notPunct_of_wordStart c hc), isDigit_of_wordStart c hc, hc]
  simp only [lexWord, takeWhile_append_stop _ _ _ hw h, dropWhile_append_stop _ _ _ hw h]
  rfl

theorem lex_number (c : Char) (w r : Str) (hc : isDigit c = true) (hw : ∀ x ∈ w, isNumChar x = true)
    (h : ∀ x r', r = x :: r' → isNumChar x = false) :
    segment (c :: (w ++ r)) = ⟨if w.contains '.' then .Float else .Integer, c :: w⟩ :: segment r := by
  rw [segment_tok _ _ (isWs_of_digit c hc), lexOne_notPunct _ _ (notPunct_of_digit c hc), hc]
  simp only [lexNumber, if_true, takeWhile_append_stop _ _ _ hw h, dropWhile_append_stop _ _ _ hw h]

theorem wordKind_ident (w : Str) (h : w ∉ keywords) : wordKind w = .Ident := by
  have h' : ∀ x ∈ keywords, w ≠ x := fun x hx e => h (e ▸ hx)
  unfold wordKind
  iterate 7 rw [if_neg (h' _ (by decide))]

/-- Lexing a well-formed token that is not extended by what follows gives that token back. -/
theorem lex_spell (t : Token) (r : Str) (ht : TokenOk t) (hr : NoExt t r) : segment (spell t ++ r) = t :: segment r := by
  rcases t with ⟨k, l⟩
  cases k
  case Eof => exact ht.elim
  case Illegal =>
    rcases ht with ⟨c, rfl, h1, h2, h3, h4⟩
    simp only [spell, List.cons_append, List.nil_append]
    rw [segment_tok _ _ h1, lexOne_notPunct _ _ h2, h3, h4]; rfl
  case Ident =>
    rcases ht with ⟨⟨c, w, rfl, h1, h2⟩, h3⟩
    simp only [spell, List.cons_append]
    rw [lex_word c w r h1 h2 hr, wordKind_ident _ h3]
  case Integer =>
    rcases ht with ⟨h1, h2⟩
    rcases l with _ | ⟨c, w⟩
    · exact absurd rfl h1
    simp only [spell, List.cons_append]
    rw [lex_number c w r (h2 c (by simp)) (fun x hx => by simp [isNumChar, h2 x (by simp [hx])]) hr]
    have : w.contains '.' = false := by
      rw [Bool.eq_false_iff]
      intro h
      have := h2 '.' (by simp at h; simp [h])
      simp [isDigit] at this
    simp only [this, Bool.false_eq_true, if_false]
  case Float =>
    rcases ht with ⟨⟨c, w, rfl, h1⟩, h2, h3⟩
    simp only [spell, List.cons_append]
    rw [lex_number c w r h1 (fun x hx => by simpa [isNumChar] using h2 x (by simp [hx])) hr]
    have : w.contains '.' = true := by
      rcases List.mem_cons.1 h3 with rfl | h
      · simp [isDigit] at h1
      · simp [h]
    simp only [this, if_true]
  case String =>
    simp only [spell, List.append_assoc, List.cons_append, List.nil_append]
    exact lex_quoted '"' .String l r (by decide) (fun _ => rfl) ht
  case Template =>
    simp only [spell, List.append_assoc, List.cons_append, List.nil_append]
    exact lex_quoted '`' .Template l r (by decide) (fun _ => rfl) ht
  all_goals
    simp only [TokenOk, fixedText, Option.some.injEq] at ht
    subst ht
    simp only [spell, List.cons_append, List.nil_append]
  case Assign => exact lex_two '=' '=' _ _ r (by decide) (fun _ => rfl) hr
  case Not => exact lex_two '!' '=' _ _ r (by decide) (fun _ => rfl) hr
  case Bo => exact lex_two '|' '|' _ _ r (by decide) (fun _ => rfl) hr
  case Ba => exact lex_two '&' '&' _ _ r (by decide) (fun _ => rfl) hr
  case Lt => exact lex_three '<' '=' '<' _ _ _ r (by decide) (fun _ => rfl) hr
  case Gt => exact lex_three '>' '=' '>' _ _ _ r (by decide) (fun _ => rfl) hr
  case True => exact lex_word 't' c!"rue" r (by decide) (by decide) hr
  case False => exact lex_word 'f' c!"alse" r (by decide) (by decide) hr
  case Request => exact lex_word 'r' c!"equest" r (by decide) (by decide) hr
  case Let => exact lex_word 'l' c!"et" r (by decide) (by decide) hr
  case If => exact lex_word 'i' c!"f" r (by decide) (by decide) hr
  case Else => exact lex_word 'e' c!"lse" r (by decide) (by decide) hr
  case Test => exact lex_word 't' c!"est" r (by decide) (by decide) hr
  all_goals (rw [segment_tok _ _ (by decide)]; rfl)

/-- Strong induction on texts along lexer steps. -/
theorem lex_induction {P : Str → Prop} (hnil : P []) (hws : ∀ c cs, isWs c = true → P cs → P (c :: cs))
    (htok : ∀ c cs, isWs c = false → P (lexOne c cs).2 → P (c :: cs)) (s : Str) : P s := by
  induction hn : s.length using Nat.strongRecOn generalizing s with
  | _ n ih =>
    cases s with
    | nil => exact hnil
    | cons c cs =>
      simp at hn
      by_cases hc : isWs c = true
      · exact hws c cs hc (ih cs.length (by omega) cs rfl)
      · have hc : isWs c = false := by simpa using hc
        exact htok c cs hc (ih _ (by have := lexOne_length c cs hc; omega) _ rfl)

theorem layout_ws {b : Bool} {s : Str} {ts : List Token} (h : Layout b s ts) (c : Char) (hc : isWs c = true) :
    Layout b (c :: s) ts := by
  have cons : ∀ ws, AllWs ws → AllWs (c :: ws) := fun ws h x hx => by
    rcases List.mem_cons.1 hx with rfl | hx
    · exact hc
    · exact h x hx
  cases h with
  | eof _ hws => exact .eof _ (cons _ hws)
  | tok _ ws t rest ts hws h1 h2 h3 => exact .tok _ (c :: ws) t rest ts (cons _ hws) h1 h2 h3
  | openString ws lit hws hl => exact .openString (c :: ws) lit (cons _ hws) hl
  | openTemplate ws lit hws hl => exact .openTemplate (c :: ws) lit (cons _ hws) hl

/-- The lexer's output is a layout of its input. -/
theorem segment_layout (s : Str) : ∃ b, Layout b s (segment s) := by
  induction s using lex_induction with
  | hnil => exact ⟨true, .eof [] (by simp [AllWs])⟩
  | hws c cs hc ih =>
    rcases ih with ⟨b, h⟩
    exact ⟨b, by rw [segment_ws _ _ hc]; exact layout_ws h c hc⟩
  | htok c cs hc ih =>
    rw [segment_tok _ _ hc]
    rcases lexOne_ok c cs hc with ⟨h1, h2, h3⟩ | ⟨hr, q, lit, hq, hn, ht⟩
    · rcases ih with ⟨b, h⟩
      refine ⟨b, ?_⟩
      have := Layout.tok b [] _ _ _ (by simp [AllWs]) h1 h3 h
      rw [h2]; simpa using this
    · refine ⟨false, ?_⟩
      rw [hr, segment_nil, ht]
      rcases hq with ⟨rfl, hq⟩ | ⟨rfl, hq⟩
      · rw [hq]; exact .openString [] lit (by simp [AllWs]) hn
      · rw [hq]; exact .openTemplate [] lit (by simp [AllWs]) hn

/-- A layout determines the token list. -/
theorem layout_segment {b : Bool} {s : Str} {ts : List Token} (h : Layout b s ts) : segment s = ts := by
  induction h with
  | eof ws hws => have := segment_allWs ws [] hws; simpa [segment_nil] using this
  | tok b ws t rest ts hws h1 h2 _ ih =>
    rw [List.append_assoc, segment_allWs _ _ hws, lex_spell t rest h1 h2, ih]
  | openString ws lit hws hl =>
    rw [List.append_assoc, segment_allWs _ _ hws, List.cons_append, List.nil_append, segment_tok _ _ (by decide)]
    have h1 : ∀ x ∈ lit, decide (x ≠ '"') = true := by intro x hx; simp; rintro rfl; exact hl hx
    have e1 := takeWhile_append_stop _ lit [] h1 (by simp)
    have e2 := dropWhile_append_stop _ lit [] h1 (by simp)
    rw [List.append_nil] at e1 e2
    have : lexOne '"' lit = (⟨.String, lit⟩, []) := by
      change lexQuoted '"' .String lit = _
      simp only [lexQuoted, e1, e2]; rfl
    rw [this]; rfl
  | openTemplate ws lit hws hl =>
    rw [List.append_assoc, segment_allWs _ _ hws, List.cons_append, List.nil_append, segment_tok _ _ (by decide)]
    have h1 : ∀ x ∈ lit, decide (x ≠ '`') = true := by intro x hx; simp; rintro rfl; exact hl hx
    have e1 := takeWhile_append_stop _ lit [] h1 (by simp)
    have e2 := dropWhile_append_stop _ lit [] h1 (by simp)
    rw [List.append_nil] at e1 e2
    have : lexOne '`' lit = (⟨.Template, lit⟩, []) := by
      change lexQuoted '`' .Template lit = _
      simp only [lexQuoted, e1, e2]; rfl
    rw [this]; rfl

theorem layout_tokens_ok {b : Bool} {s : Str} {ts : List Token} (h : Layout b s ts) :
    ∃ init, ts = init ++ [Token.eof] ∧ ∀ t ∈ init, TokenOk t := by
  induction h with
  | eof ws _ => exact ⟨[], rfl, by simp⟩
  | tok b ws t rest ts _ h1 _ _ ih =>
    rcases ih with ⟨init, rfl, hi⟩
    exact ⟨t :: init, rfl, fun x hx => (List.mem_cons.1 hx).elim (fun e => e ▸ h1) (hi x)⟩
  | openString ws lit _ hl => exact ⟨[⟨.String, lit⟩], rfl, by simpa [TokenOk] using hl⟩
  | openTemplate ws lit _ hl => exact ⟨[⟨.Template, lit⟩], rfl, by simpa [TokenOk] using hl⟩

/-- Whitespace never extends a token. -/
theorem extends_ws (t : Token) (c : Char) (h : isWs c = true) : extends' t c = false := by
  have hp : c ∉ punctuation := by
    intro hc
    have : ∀ x ∈ punctuation, isWs x = false := by decide
    rw [this c hc] at h; cases h
  have hne : ∀ x ∈ punctuation, (c == x) = false := fun x hx => by
    simp; rintro rfl; exact hp hx
  have hd : isDigit c = false := by
    rw [Bool.eq_false_iff]; intro hd; rw [isWs_of_digit c hd] at h; cases h
  have hs : isWordStart c = false := by
    rw [Bool.eq_false_iff]; intro hd; rw [isWs_of_wordStart c hd] at h; cases h
  have hw : isWordChar c = false := by
    simp only [isWordStart, Bool.or_eq_false_iff] at hs
    simp [isWordChar, hd, hs.1, hs.2]
  rcases t with ⟨k, l⟩
  cases k <;> simp only [extends'] <;>
    first
    | rfl
    | exact hw
    | (rw [hd, hne '.' (by decide)]; rfl)
    | exact hne _ (by decide)
    | (rw [hne _ (by decide), hne _ (by decide)]; rfl)

/-- Writing out well-formed tokens with whitespace between them lexes back to them. -/
theorem spaced_segment {ts : List Token} {text : Str} (h : Spaced ts text)
    (hok : ∃ init, ts = init ++ [Token.eof] ∧ ∀ t ∈ init, TokenOk t) : segment text = ts := by
  induction h with
  | eof ws hws => have := segment_allWs ws [] hws; simpa [segment_nil] using this
  | tok ws t ts rest hws hsep hrest ih =>
    rcases hok with ⟨init, he, hi⟩
    cases init with
    | nil =>
      simp at he; rcases he with ⟨rfl, rfl⟩
      cases hrest
    | cons t' init =>
      simp at he; rcases he with ⟨rfl, rfl⟩
      have ht := hi t (by simp)
      rw [List.append_assoc, segment_allWs _ _ hws, lex_spell t rest ht ?_, ih ⟨init, rfl, fun x hx => hi x (by simp [hx])⟩]
      intro c r hr
      exact extends_ws t c (hsep c r hr)

end Am
