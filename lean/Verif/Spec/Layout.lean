import Verif.Spec.Lexer
/-!
# Specification of gaps (C107)

Which neighbouring tokens must be kept apart by white space, and the shortest way to write a list of tokens. The table speaks of kinds of tokens
only.
-/
namespace Am.Spec

/-- The kinds of words. -/
def isWordKind : Kind → Bool
  | .Ident | .True | .False | .Request | .Let | .If | .Else | .Test => true
  | _ => false

/-- The kinds of numbers. -/
def isNumberKind : Kind → Bool
  | .Integer | .Float => true
  | _ => false

/-- A token of kind `a` directly before one of kind `b` is read as something else: two words, a word and a number after it, two numbers, a
number and a dot, and the operators that make a longer one. -/
def needsGap (a b : Kind) : Bool :=
  (isWordKind a && (isWordKind b || isNumberKind b)) ||
  (isNumberKind a && (isNumberKind b || b == .Dot)) ||
  ((a == .Assign || a == .Not) && (b == .Assign || b == .Eq)) ||
  (a == .Bo && (b == .Bo || b == .Lo)) ||
  (a == .Ba && (b == .Ba || b == .La)) ||
  (a == .Lt && (b == .Assign || b == .Eq || b == .Lt || b == .Le || b == .Sl)) ||
  (a == .Gt && (b == .Assign || b == .Eq || b == .Gt || b == .Ge || b == .Sr))

/-- The tokens written one after the other, each behind its gap, and a last gap. -/
def joinGaps : List (Str × Token) → Str → Str
  | [], last => last
  | (g, t) :: l, last => g ++ spell t ++ joinGaps l last

/-- Where a gap is needed it is not empty. -/
def GapsOk : List (Str × Token) → Prop
  | [] => True
  | [_] => True
  | (_, a) :: (g, b) :: l => (needsGap a.kind b.kind = true → g ≠ []) ∧ GapsOk ((g, b) :: l)

/-- The tokens with one blank where a gap is needed and nothing elsewhere. -/
def compact : List Token → Str
  | [] => []
  | [t] => spell t
  | t :: u :: l => spell t ++ ((if needsGap t.kind u.kind then c!" " else []) ++ compact (u :: l))

/-- Runs of white space, each between two quotation marks and once more behind the second: such a text adds the same empty-looking strings
whether or not a quotation is open before it. -/
def Twice (q : Char) (b : Str) : Prop := ∃ L : List Str, (∀ w ∈ L, AllWs w) ∧ b = L.flatMap fun w => q :: w ++ q :: w

end Am.Spec
