import Verif.Spec.Basic
/-! # What trimming, words and lines are -/
namespace Am.Spec
open Am

/-- `t` is `s` without its leading and trailing white space. -/
def Trims (s t : Str) : Prop :=
  ∃ a b, s = a ++ t ++ b ∧ (∀ c ∈ a, isWs c = true) ∧ (∀ c ∈ b, isWs c = true) ∧
    (∀ c, t.head? = some c → isWs c = false) ∧ (∀ c, t.getLast? = some c → isWs c = false)

/-- A text without white space at its ends. -/
def Tight (t : Str) : Prop := (∀ c, t.head? = some c → isWs c = false) ∧ (∀ c, t.getLast? = some c → isWs c = false)

/-- The lines of a text: each is ended by a line feed or by carriage return and line feed, except that the last one may be ended by the end
of the text. -/
inductive Lines : Str → List Str → Prop
  | nil : Lines [] []
  | last (l : Str) : '\n' ∉ l → l ≠ [] → Lines l [l]
  | lf (l r : Str) (ls : List Str) : '\n' ∉ l → (∀ l', l ≠ l' ++ ['\r']) → Lines r ls → Lines (l ++ '\n' :: r) (l :: ls)
  | crlf (l r : Str) (ls : List Str) : '\n' ∉ l → Lines r ls → Lines (l ++ c!"\r\n" ++ r) (l :: ls)

/-- The words of a text: the maximal runs of characters that are not white space. -/
inductive Words : Str → List Str → Prop
  | none (s : Str) : (∀ c ∈ s, isWs c = true) → Words s []
  | cons (sp w r : Str) (ws : List Str) : (∀ c ∈ sp, isWs c = true) → w ≠ [] → (∀ c ∈ w, isWs c = false) →
      (∀ c, r.head? = some c → isWs c = true) → Words r ws → Words (sp ++ w ++ r) (w :: ws)

end Am.Spec
