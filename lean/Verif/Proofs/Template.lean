import Verif.Spec.Template
import Verif.Model.Native
/-! # The placeholder pattern and right-to-left replacement -/
set_option linter.unusedSimpArgs false
namespace Am
open Spec

theorem tmpl_takeWhile_append {p : Char → Bool} {l r : Str} (hl : ∀ c ∈ l, p c = true) (hr : ∀ c, r.head? = some c → p c = false) :
    (l ++ r).takeWhile p = l ∧ (l ++ r).dropWhile p = r := by
  induction l with
  | nil =>
    cases r with
    | nil => simp
    | cons c r => have := hr c rfl; simp [List.takeWhile, List.dropWhile, this]
  | cons a l ih =>
    have ha := hl a List.mem_cons_self
    have := ih (fun c hc => hl c (List.mem_cons_of_mem _ hc))
    simp [List.takeWhile, List.dropWhile, ha, this]

theorem tmpl_dropWhile_head {p : Char → Bool} (l : Str) : ∀ c, (l.dropWhile p).head? = some c → p c = false := by
  induction l with
  | nil => intro c h; cases h
  | cons a l ih =>
    intro c h
    simp only [List.dropWhile] at h
    split at h
    · exact ih c h
    · rename_i hp; cases h; exact hp

theorem tmpl_takeWhile_all {p : Char → Bool} (l : Str) : ∀ c ∈ l.takeWhile p, p c = true := by
  induction l with
  | nil => intro c h; cases h
  | cons a l ih =>
    intro c h
    simp only [List.takeWhile] at h
    split at h
    · rcases List.mem_cons.1 h with h | h
      · subst h; assumption
      · exact ih c h
    · cases h

theorem wordStart_not_ws {c : Char} (h : isWordStart c = true) : isWs c = false := by
  cases hw : isWs c with
  | false => rfl
  | true =>
    simp only [isWordStart, isAlpha, Bool.or_eq_true, Bool.and_eq_true, decide_eq_true_eq, beq_iff_eq] at h
    simp only [isWs, Bool.or_eq_true, Bool.and_eq_true, decide_eq_true_eq, beq_iff_eq] at hw
    have h' : (65 ≤ c.toNat ∧ c.toNat ≤ 90 ∨ 97 ≤ c.toNat ∧ c.toNat ≤ 122) ∨ c.toNat = 95 := by
      rcases h with (h | h) | h
      · exact Or.inl (Or.inl ⟨UInt32.le_iff_toNat_le.1 h.1, UInt32.le_iff_toNat_le.1 h.2⟩)
      · exact Or.inl (Or.inr ⟨UInt32.le_iff_toNat_le.1 h.1, UInt32.le_iff_toNat_le.1 h.2⟩)
      · exact Or.inr (by rw [h]; rfl)
    omega

theorem wordChar_not_ws {c : Char} (h : isWordChar c = true) : isWs c = false := by
  cases hw : isWs c with
  | false => rfl
  | true =>
    simp only [isWordChar, isAlpha, isDigit, Bool.or_eq_true, Bool.and_eq_true, decide_eq_true_eq, beq_iff_eq] at h
    simp only [isWs, Bool.or_eq_true, Bool.and_eq_true, decide_eq_true_eq, beq_iff_eq] at hw
    have h' : (65 ≤ c.toNat ∧ c.toNat ≤ 90 ∨ 97 ≤ c.toNat ∧ c.toNat ≤ 122) ∨ (48 ≤ c.toNat ∧ c.toNat ≤ 57) ∨ c.toNat = 95 := by
      rcases h with ((h | h) | h) | h
      · exact Or.inl (Or.inl ⟨UInt32.le_iff_toNat_le.1 h.1, UInt32.le_iff_toNat_le.1 h.2⟩)
      · exact Or.inl (Or.inr ⟨UInt32.le_iff_toNat_le.1 h.1, UInt32.le_iff_toNat_le.1 h.2⟩)
      · exact Or.inr (Or.inl ⟨UInt32.le_iff_toNat_le.1 h.1, UInt32.le_iff_toNat_le.1 h.2⟩)
      · exact Or.inr (Or.inr (by rw [h]; rfl))
    omega

theorem close_not_word : isWordChar '}' = false := by decide
theorem close_not_ws : isWs '}' = false := by decide

/-- The pattern matches every placeholder, with its name and exactly its text. -/
theorem matchAt_hole {h name rest : Str} (hh : IsHole h name) : matchAt (h ++ rest) = some (name, rest) := by
  obtain ⟨before, after, first, word, rfl, rfl, hb, ha, hf, hw⟩ := hh
  have e : '{' :: (before ++ first :: word ++ after ++ ['}']) ++ rest = '{' :: (before ++ (first :: (word ++ (after ++ ('}' :: rest))))) := by simp
  rw [e]
  simp only [matchAt]
  rw [(tmpl_takeWhile_append hb (r := first :: (word ++ (after ++ ('}' :: rest)))) (by intro c hc; cases hc; exact wordStart_not_ws hf)).2]
  dsimp only
  rw [if_pos hf]
  have h1 : ∀ c, (after ++ ('}' :: rest)).head? = some c → isWordChar c = false := by
    intro c hc
    cases after with
    | nil => cases hc; exact close_not_word
    | cons a after =>
      cases hc
      cases hx : isWordChar c with
      | false => rfl
      | true => have := wordChar_not_ws hx; rw [ha c List.mem_cons_self] at this; cases this
  have h2 := tmpl_takeWhile_append hw h1
  rw [h2.1, h2.2]
  rw [(tmpl_takeWhile_append ha (r := '}' :: rest) (by intro c hc; cases hc; exact close_not_ws)).2]
  rfl

/-- The pattern matches nothing else. -/
theorem hole_of_matchAt {s name rest : Str} (h : matchAt s = some (name, rest)) : ∃ hl, IsHole hl name ∧ s = hl ++ rest := by
  unfold matchAt at h
  split at h
  · rename_i cs
    split at h
    · rename_i c r hd
      split at h
      · rename_i hc
        split at h
        · rename_i rest' hd2
          injection h with h
          injection h with h1 h2
          subst h1 h2
          refine ⟨'{' :: (cs.takeWhile isWs ++ (c :: r.takeWhile isWordChar) ++ (r.dropWhile isWordChar).takeWhile isWs ++ ['}']),
            ⟨_, _, _, _, rfl, rfl, tmpl_takeWhile_all _, tmpl_takeWhile_all _, hc, tmpl_takeWhile_all _⟩, ?_⟩
          have e1 := List.takeWhile_append_dropWhile (p := isWs) (l := cs)
          have e2 := List.takeWhile_append_dropWhile (p := isWordChar) (l := r)
          have e3 := List.takeWhile_append_dropWhile (p := isWs) (l := r.dropWhile isWordChar)
          rw [hd] at e1
          rw [hd2] at e3
          have : cs = cs.takeWhile isWs ++ (c :: r.takeWhile isWordChar) ++ (r.dropWhile isWordChar).takeWhile isWs ++ ['}'] ++ rest' := by
            conv => lhs; rw [← e1, ← e2, ← e3]
            simp
          rw [List.cons_append, ← this]
        · cases h
      · cases h
    · cases h
  · cases h

theorem hole_nonempty {h name : Str} (hh : IsHole h name) : h ≠ [] := by
  obtain ⟨_, _, _, _, rfl, _⟩ := hh; simp

theorem matchAt_none {s : Str} : matchAt s = none ↔ ∀ h name tail, IsHole h name → s ≠ h ++ tail := by
  constructor
  · intro hm h name tail hh he
    rw [he, matchAt_hole hh] at hm
    cases hm
  · intro hn
    cases hm : matchAt s with
    | none => rfl
    | some p =>
      obtain ⟨name, rest⟩ := p
      obtain ⟨h, hh, he⟩ := hole_of_matchAt hm
      exact absurd he (hn h name rest hh)

/-- Every text has exactly one cut into pieces. -/
theorem pieces_unique {s : Str} {ps qs : List Piece} (hp : Pieces s ps) (hq : Pieces s qs) : ps = qs := by
  induction hp generalizing qs with
  | nil =>
    generalize he : ([] : Str) = s at hq
    cases hq with
    | nil => rfl
    | hole hh _ => exact absurd (List.append_eq_nil_iff.1 he.symm).1 (hole_nonempty hh)
    | lit => cases he
  | @hole h name rest ps hh hr ih =>
    generalize he : h ++ rest = s at hq
    cases hq with
    | nil => exact absurd (List.append_eq_nil_iff.1 he).1 (hole_nonempty hh)
    | hole hh2 hr2 =>
      have h1 := matchAt_hole (rest := rest) hh
      rw [he, matchAt_hole hh2] at h1
      injection h1 with h1
      injection h1 with h1 h2
      subst h1 h2
      rw [ih hr2]
    | lit hn _ => exact absurd he.symm (hn _ _ _ hh)
  | @lit c rest ps hn hr ih =>
    generalize he : c :: rest = s at hq
    cases hq with
    | nil => cases he
    | hole hh2 _ => exact absurd he (hn _ _ _ hh2)
    | lit hn2 hr2 => cases he; rw [ih hr2]

theorem replaceAll_append (s : Str) (a b : List ((Nat × Nat) × Str)) : replaceAll s (a ++ b) = replaceAll (replaceAll s a) b := by
  induction a generalizing s with
  | nil => rfl
  | cons p a ih => obtain ⟨⟨x, y⟩, w⟩ := p; exact ih _

/-- The pieces of a text together with the list of matches found in it, and what replacing does: with any choice `w` of texts for the
matches (given as a list), replacing from the last to the first fills the pieces in order. -/
theorem findAll_pieces : ∀ (n pos : Nat) (s : Str), s.length ≤ n → ∃ ps, Pieces s ps ∧ (findAll n pos s).length = holes ps ∧
    (∀ text, fillBy text ps = fillWith ps ((findAll n pos s).map fun m => text m.1)) ∧
    (∀ (p : Str) (ws : List Str), p.length = pos → ws.length = holes ps →
      replaceAll (p ++ s) ((((findAll n pos s).map (·.2)).zip ws).reverse) = p ++ fillWith ps ws) := by
  intro n
  induction n with
  | zero =>
    intro pos s hs
    cases s with
    | nil => exact ⟨[], .nil, rfl, fun _ => rfl, fun p ws _ _ => by simp [findAll, replaceAll, fillWith]⟩
    | cons c s => simp at hs
  | succ n ih =>
    intro pos s hs
    cases s with
    | nil => exact ⟨[], .nil, rfl, fun _ => rfl, fun p ws _ _ => by simp [findAll, replaceAll, fillWith]⟩
    | cons c cs =>
      cases hm : matchAt (c :: cs) with
      | none =>
        have hf : findAll (n + 1) pos (c :: cs) = findAll n (pos + 1) cs := by simp only [findAll, hm]
        obtain ⟨ps, h1, h2, h3, h4⟩ := ih (pos + 1) cs (by simpa using hs)
        refine ⟨.lit c :: ps, .lit (matchAt_none.1 hm) h1, by rw [hf]; exact h2, ?_, ?_⟩
        · intro text; rw [hf]; simp only [fillBy, fillWith, h3 text]
        · intro p ws hp hw
          rw [hf]
          have := h4 (p ++ [c]) ws (by simp [hp]) hw
          simpa [fillWith] using this
      | some q =>
        obtain ⟨name, rest⟩ := q
        obtain ⟨h, hh, he⟩ := hole_of_matchAt hm
        have hne : 0 < h.length := List.length_pos_iff.2 (hole_nonempty hh)
        have hlen : (c :: cs).length = h.length + rest.length := by rw [he, List.length_append]
        have hstop : pos + ((c :: cs).length - rest.length) = pos + h.length := by omega
        have hf : findAll (n + 1) pos (c :: cs) = (name, pos, pos + h.length) :: findAll n (pos + h.length) rest := by
          simp only [findAll, hm]
          rw [hstop]
        obtain ⟨ps, h1, h2, h3, h4⟩ := ih (pos + h.length) rest (by omega)
        refine ⟨.hole name :: ps, by rw [he]; exact .hole hh h1, by rw [hf]; simp [holes, h2], ?_, ?_⟩
        · intro text; rw [hf]; simp only [fillBy, fillWith, List.map_cons, h3 text]
        · intro p ws hp hw
          cases ws with
          | nil => simp [holes] at hw
          | cons w ws =>
            rw [hf]
            simp only [List.map_cons, List.zip_cons_cons, List.reverse_cons]
            rw [replaceAll_append]
            have := h4 (p ++ h) ws (by simp [hp]) (by simpa [holes] using hw)
            rw [he, ← List.append_assoc, this]
            simp only [replaceAll, replaceRange, fillWith]
            have e1 : (p ++ h ++ fillWith ps ws).take pos = p := by
              rw [List.append_assoc, ← hp, List.take_left]
            have e2 : (p ++ h ++ fillWith ps ws).drop (pos + h.length) = fillWith ps ws := by
              rw [← hp, ← List.length_append, List.drop_left]
            rw [e1, e2, List.append_assoc]

theorem zip_append' {α β : Type} : ∀ (l : List α) (r : List β), l.length = r.length → ∀ (x : List α) (y : List β),
    (l ++ x).zip (r ++ y) = l.zip r ++ x.zip y := by
  intro l
  induction l with
  | nil => intro r h x y; cases r with
    | nil => rfl
    | cons b r => simp at h
  | cons a l ih => intro r h x y; cases r with
    | nil => simp at h
    | cons b r => simp [ih r (by simpa using h)]

theorem zip_reverse' {α β : Type} : ∀ (l : List α) (r : List β), l.length = r.length → l.reverse.zip r.reverse = (l.zip r).reverse := by
  intro l
  induction l with
  | nil => intro r _; simp
  | cons a l ih => intro r h; cases r with
    | nil => simp at h
    | cons b r =>
      have h' : l.length = r.length := by simpa using h
      simp only [List.reverse_cons, List.zip_cons_cons]
      rw [zip_append' _ _ (by simp [h']), ih r h']
      rfl

theorem zip_map_reverse {α β γ : Type} (l : List α) (f : α → β) (g : α → γ) :
    l.reverse.map (fun m => (f m, g m)) = ((l.map f).zip (l.map g)).reverse := by
  rw [List.map_reverse]
  congr 1
  induction l with
  | nil => rfl
  | cons a l ih => simp [ih]

end Am
