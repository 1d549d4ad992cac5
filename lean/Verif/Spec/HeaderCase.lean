import Verif.Spec.Response
import Verif.Spec.Message
/-! # Letter case of header names (RFC 9110, 5.1: field names are case-insensitive) -/
namespace Am.Spec
open Am

/-- The same character, or a capital ASCII letter and its small one, or the other way round. -/
def SameLetter (c d : Char) : Prop :=
  c = d ∨ ∃ k, k < 26 ∧ ((c.toNat = 65 + k ∧ d.toNat = 97 + k) ∨ (c.toNat = 97 + k ∧ d.toNat = 65 + k))

/-- The same text up to the case of ASCII letters. -/
inductive SameLetters : Str → Str → Prop
  | nil : SameLetters [] []
  | cons {c d : Char} {s t : Str} : SameLetter c d → SameLetters s t → SameLetters (c :: s) (d :: t)

/-- The same headers up to the case of their names. -/
inductive SameHeaders : List Header → List Header → Prop
  | nil : SameHeaders [] []
  | cons {n n' v : Str} {hs hs' : List Header} : SameLetters n n' → SameHeaders hs hs' → SameHeaders (⟨n, v⟩ :: hs) (⟨n', v⟩ :: hs')

/-- Lines of a message after the first one: the second list has the names of some headers in other letter case. -/
inductive RecasedLines : List Str → List Str → Prop
  | nil : RecasedLines [] []
  | blank (l : Str) (r : List Str) : (∀ c ∈ l, isWs c = true) → RecasedLines (l :: r) (l :: r)
  | other (l : Str) (r r' : List Str) : (∃ c ∈ l, isWs c = false) → ':' ∉ l → RecasedLines r r' → RecasedLines (l :: r) (l :: r')
  | field (n n' v : Str) (r r' : List Str) : ':' ∉ n → SameLetters n n' → RecasedLines r r' → RecasedLines ((n ++ ':' :: v) :: r) ((n' ++ ':' :: v) :: r')

/-- Texts after the status line of a response: the second one has the names of some headers in other letter case. -/
inductive RecasedText : Str → Str → Prop
  | same (s : Str) : RecasedText s s
  | other (l r r' : Str) : (∃ c ∈ l, isWs c = false) → '\n' ∉ l → ':' ∉ l → RecasedText r r' → RecasedText (l ++ '\n' :: r) (l ++ '\n' :: r')
  | field (n n' v r r' : Str) : '\n' ∉ n → '\n' ∉ v → ':' ∉ n → SameLetters n n' → RecasedText r r' →
      RecasedText (n ++ ':' :: v ++ '\n' :: r) (n' ++ ':' :: v ++ '\n' :: r')

open Classical in
/-- The values received under a name in any letter case, in order. -/
noncomputable def valuesUnder (name : Str) (hs : List Header) : List Str := (hs.filter fun h => decide (SameLetters h.name name)).map (·.value)

end Am.Spec
