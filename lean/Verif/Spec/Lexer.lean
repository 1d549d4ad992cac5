import Verif.Model.Lexer
/-!
# Specification of tokens and source layout

Independent of the lexer: what a well-formed token is, how it is spelled in the source, and how a source text is laid out.
-/
namespace Am.Spec

/-- All characters are Unicode whitespace. -/
def AllWs (s : Str) : Prop := ∀ c ∈ s, isWs c = true

instance (s : Str) : Decidable (AllWs s) := inferInstanceAs (Decidable (∀ c ∈ s, isWs c = true))

/-- The fixed spelling of operator, delimiter and keyword tokens. -/
def fixedText : Kind → Option Str
  | .Add => some c!"+" | .Sub => some c!"-" | .Mul => some c!"*" | .Div => some c!"/" | .Rem => some c!"%"
  | .Not => some c!"!" | .Bx => some c!"^" | .Bo => some c!"|" | .Ba => some c!"&" | .Sl => some c!"<<"
  | .Sr => some c!">>" | .Lo => some c!"||" | .La => some c!"&&" | .Lt => some c!"<" | .Gt => some c!">"
  | .Le => some c!"<=" | .Ge => some c!">=" | .Eq => some c!"==" | .Ne => some c!"!="
  | .Assign => some c!"=" | .Comma => some c!"," | .Semi => some c!";" | .Colon => some c!":" | .Dot => some c!"."
  | .Lp => some c!"(" | .Rp => some c!")" | .Lb => some c!"{" | .Rb => some c!"}" | .Ls => some c!"[" | .Rs => some c!"]"
  | .True => some c!"true" | .False => some c!"false" | .Request => some c!"request" | .Let => some c!"let"
  | .If => some c!"if" | .Else => some c!"else" | .Test => some c!"test"
  | .Illegal | .Eof | .Ident | .Integer | .Float | .String | .Template => none

/-- The seven keywords. -/
def keywords : List Str := [c!"true", c!"false", c!"request", c!"let", c!"if", c!"else", c!"test"]

/-- A non-empty ASCII word that starts with a letter or underscore. -/
def IsWord (s : Str) : Prop := ∃ c r, s = c :: r ∧ isWordStart c = true ∧ ∀ x ∈ r, isWordChar x = true

/-- Characters with a meaning of their own. -/
def punctuation : Str := c!"=!+-*/%^|&<>,;:.(){}[]\"`"

/-- What the text of a token of each kind looks like. -/
def TokenOk (t : Token) : Prop :=
  match t.kind with
  | .Eof => False
  | .Illegal =>
    ∃ c, t.literal = [c] ∧ isWs c = false ∧ c ∉ punctuation ∧ isDigit c = false ∧ isWordStart c = false
  | .Ident => IsWord t.literal ∧ t.literal ∉ keywords
  | .Integer => t.literal ≠ [] ∧ ∀ c ∈ t.literal, isDigit c = true
  | .Float =>
    (∃ c r, t.literal = c :: r ∧ isDigit c = true) ∧ (∀ c ∈ t.literal, isDigit c = true ∨ c = '.') ∧ '.' ∈ t.literal
  | .String => '"' ∉ t.literal
  | .Template => '`' ∉ t.literal
  | k => fixedText k = some t.literal

/-- How a token is written in the source. -/
def spell (t : Token) : Str :=
  match t.kind with
  | .String => ['"'] ++ t.literal ++ ['"']
  | .Template => ['`'] ++ t.literal ++ ['`']
  | _ => t.literal

/-- The character `c` directly after the token would change it. -/
def extends' (t : Token) (c : Char) : Bool :=
  match t.kind with
  | .Ident | .True | .False | .Request | .Let | .If | .Else | .Test => isWordChar c
  | .Integer | .Float => isDigit c || c == '.'
  | .Assign | .Not => c == '='
  | .Bo => c == '|'
  | .Ba => c == '&'
  | .Lt => c == '=' || c == '<'
  | .Gt => c == '=' || c == '>'
  | _ => false

/-- The text after the token does not extend it. -/
def NoExt (t : Token) (r : Str) : Prop := ∀ c r', r = c :: r' → extends' t c = false

/-- `Layout closed text tokens`: the text is the tokens' spellings in order with whitespace around them; each token is
well formed and maximal. Only the last token before the end marker may be an unterminated string or template, and then
`closed` is `false`. -/
inductive Layout : Bool → Str → List Token → Prop
  | eof (ws : Str) : AllWs ws → Layout true ws [Token.eof]
  | tok (closed : Bool) (ws : Str) (t : Token) (rest : Str) (ts : List Token) :
      AllWs ws → TokenOk t → NoExt t rest → Layout closed rest ts → Layout closed (ws ++ spell t ++ rest) (t :: ts)
  | openString (ws lit : Str) : AllWs ws → '"' ∉ lit → Layout false (ws ++ ['"'] ++ lit) [⟨.String, lit⟩, Token.eof]
  | openTemplate (ws lit : Str) : AllWs ws → '`' ∉ lit → Layout false (ws ++ ['`'] ++ lit) [⟨.Template, lit⟩, Token.eof]

/-- `Spaced tokens text`: the tokens written with whitespace between them. -/
inductive Spaced : List Token → Str → Prop
  | eof (ws : Str) : AllWs ws → Spaced [Token.eof] ws
  | tok (ws : Str) (t : Token) (ts : List Token) (rest : Str) :
      AllWs ws → (∀ c r, rest = c :: r → isWs c = true) → Spaced ts rest → Spaced (t :: ts) (ws ++ spell t ++ rest)

end Am.Spec
