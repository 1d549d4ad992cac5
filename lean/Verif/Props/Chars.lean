import Verif.Spec.Chars
/-! # The sets of characters used by the lexer, the templates and the readers of messages (C02, C04, C27) -/
namespace Am
open Spec

theorem char_mem {c : Char} {l : Str} : c ∈ l ↔ c.toNat ∈ l.map Char.toNat := by
  rw [List.mem_map]
  constructor
  · exact fun h => ⟨c, h, rfl⟩
  · rintro ⟨d, h, he⟩
    have : c = d := by
      have h1 := Char.ofNat_toNat c
      have h2 := Char.ofNat_toNat d
      rw [← h1, ← h2, he]
    exact this ▸ h

/-- C02: the characters skipped between tokens, around placeholder names and at the ends of header lines are those with the Unicode property
`White_Space`. -/
theorem c02_white (c : Char) : isWs c = true ↔ c ∈ whiteSpaces := by
  rw [char_mem]
  have : whiteSpaces.map Char.toNat = [9, 10, 11, 12, 13, 32, 0x85, 0xA0, 0x1680, 0x2000, 0x2001, 0x2002, 0x2003, 0x2004, 0x2005, 0x2006, 0x2007,
    0x2008, 0x2009, 0x200A, 0x2028, 0x2029, 0x202F, 0x205F, 0x3000] := by decide +kernel
  rw [this]
  unfold isWs
  simp only [Bool.or_eq_true, Bool.and_eq_true, decide_eq_true_eq, beq_iff_eq, List.mem_cons, List.not_mem_nil, or_false]
  omega

theorem char_le {a b : Char} : a ≤ b ↔ a.toNat ≤ b.toNat := by
  rw [Char.le_def, UInt32.le_iff_toNat_le]; rfl

/-- C04: the digits of numbers are the ASCII digits. -/
theorem c04_digits (c : Char) : isDigit c = true ↔ c ∈ asciiDigits := by
  rw [char_mem]
  have : asciiDigits.map Char.toNat = [48, 49, 50, 51, 52, 53, 54, 55, 56, 57] := by decide +kernel
  rw [this]
  unfold isDigit
  simp only [Bool.and_eq_true, decide_eq_true_eq, char_le, show '0'.toNat = 48 from rfl, show '9'.toNat = 57 from rfl, List.mem_cons, List.not_mem_nil,
    or_false]
  omega

theorem alpha_letters (c : Char) : isAlpha c = true ↔ c ∈ asciiLetters := by
  rw [char_mem]
  have : asciiLetters.map Char.toNat = [65, 66, 67, 68, 69, 70, 71, 72, 73, 74, 75, 76, 77, 78, 79, 80, 81, 82, 83, 84, 85, 86, 87, 88, 89, 90,
    97, 98, 99, 100, 101, 102, 103, 104, 105, 106, 107, 108, 109, 110, 111, 112, 113, 114, 115, 116, 117, 118, 119, 120, 121, 122] := by decide +kernel
  rw [this]
  unfold isAlpha
  simp only [Bool.and_eq_true, Bool.or_eq_true, decide_eq_true_eq, char_le, show 'A'.toNat = 65 from rfl, show 'Z'.toNat = 90 from rfl,
    show 'a'.toNat = 97 from rfl, show 'z'.toNat = 122 from rfl, List.mem_cons, List.not_mem_nil, or_false]
  omega

/-- C04: a word starts with an ASCII letter or an underscore. -/
theorem c04_word_start (c : Char) : isWordStart c = true ↔ c ∈ asciiLetters ∨ c = '_' := by
  rw [isWordStart, Bool.or_eq_true, alpha_letters, beq_iff_eq]

/-- C04: a word goes on with ASCII letters, underscores and ASCII digits. -/
theorem c04_word_char (c : Char) : isWordChar c = true ↔ c ∈ asciiLetters ∨ c = '_' ∨ c ∈ asciiDigits := by
  have : isWordChar c = true ↔ isWordStart c = true ∨ isDigit c = true := by simp [isWordChar, isWordStart, or_assoc, or_comm, or_left_comm]
  rw [this, c04_word_start, c04_digits, or_assoc]

/-- Concrete cases. -/
example : isWs '\u3000' = true ∧ isWs '\u200B' = false ∧ isDigit '9' = true ∧ isDigit '\u0663' = false ∧ isWordStart '\u00E9' = false := by decide +kernel

end Am
