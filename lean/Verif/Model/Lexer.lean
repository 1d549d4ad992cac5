import Verif.Model.Token
/-! # lib/src/lexer.rs -/
namespace Am

/-- lexer.rs:10-27 and 34-51: an operator character `c` that may be doubled up with a following `p`. When the
next character is `p` it is consumed and the kind is `two`, otherwise the kind is `one`. -/
def lexTwo (c p : Char) (two one : Kind) : Str → Token × Str
  | [] => (⟨one, [c]⟩, [])
  | x :: cs => if x = p then (⟨two, [c, p]⟩, cs) else (⟨one, [c]⟩, x :: cs)

/-- lexer.rs:52-77: `<` and `>`, which may be followed by `p` (kind `k1`) or, failing that, by `q` (kind `k2`). -/
def lexThree (c p q : Char) (k1 k2 one : Kind) : Str → Token × Str
  | [] => (⟨one, [c]⟩, [])
  | x :: cs =>
    if x = p then (⟨k1, [c, p]⟩, cs)
    else if x = q then (⟨k2, [c, q]⟩, cs)
    else (⟨one, [c]⟩, x :: cs)

/-- lexer.rs:88-113: a string (`q = '"'`) or template (``q = '`'``): everything up to the next `q` or the end of
the text; the closing quote is consumed. -/
def lexQuoted (q : Char) (k : Kind) (cs : Str) : Token × Str :=
  (⟨k, cs.takeWhile (· ≠ q)⟩, (cs.dropWhile (· ≠ q)).drop 1)

/-- lexer.rs:118 the characters that continue a number. -/
def isNumChar (c : Char) : Bool := isDigit c || c == '.'

/-- lexer.rs:114-133: a number. It is a float when a dot was seen after the first digit. -/
def lexNumber (c : Char) (cs : Str) : Token × Str :=
  let w := cs.takeWhile isNumChar
  (⟨if w.contains '.' then .Float else .Integer, c :: w⟩, cs.dropWhile isNumChar)

/-- lexer.rs:144-153: the kind of a word. -/
def wordKind (w : Str) : Kind :=
  if w = c!"true" then .True
  else if w = c!"false" then .False
  else if w = c!"request" then .Request
  else if w = c!"let" then .Let
  else if w = c!"if" then .If
  else if w = c!"else" then .Else
  else if w = c!"test" then .Test
  else .Ident

/-- lexer.rs:134-154: an identifier or keyword. -/
def lexWord (c : Char) (cs : Str) : Token × Str :=
  let w := c :: cs.takeWhile isWordChar
  (⟨wordKind w, w⟩, cs.dropWhile isWordChar)

/-- lexer.rs:9-156: one token, starting at the non-whitespace character `c`, followed by `cs`. Returns the
token and the unconsumed text. The `match` arms are in source order. -/
def lexOne (c : Char) (cs : Str) : Token × Str :=
  if c = '=' then lexTwo c '=' .Eq .Assign cs
  else if c = '!' then lexTwo c '=' .Ne .Not cs
  else if c = '+' then (⟨.Add, [c]⟩, cs)
  else if c = '-' then (⟨.Sub, [c]⟩, cs)
  else if c = '*' then (⟨.Mul, [c]⟩, cs)
  else if c = '/' then (⟨.Div, [c]⟩, cs)
  else if c = '%' then (⟨.Rem, [c]⟩, cs)
  else if c = '^' then (⟨.Bx, [c]⟩, cs)
  else if c = '|' then lexTwo c '|' .Lo .Bo cs
  else if c = '&' then lexTwo c '&' .La .Ba cs
  else if c = '<' then lexThree c '=' '<' .Le .Sl .Lt cs
  else if c = '>' then lexThree c '=' '>' .Ge .Sr .Gt cs
  else if c = ',' then (⟨.Comma, [c]⟩, cs)
  else if c = ';' then (⟨.Semi, [c]⟩, cs)
  else if c = ':' then (⟨.Colon, [c]⟩, cs)
  else if c = '.' then (⟨.Dot, [c]⟩, cs)
  else if c = '(' then (⟨.Lp, [c]⟩, cs)
  else if c = ')' then (⟨.Rp, [c]⟩, cs)
  else if c = '{' then (⟨.Lb, [c]⟩, cs)
  else if c = '}' then (⟨.Rb, [c]⟩, cs)
  else if c = '[' then (⟨.Ls, [c]⟩, cs)
  else if c = ']' then (⟨.Rs, [c]⟩, cs)
  else if c = '"' then lexQuoted '"' .String cs
  else if c = '`' then lexQuoted '`' .Template cs
  else if isDigit c then lexNumber c cs
  else if isWordStart c then lexWord c cs
  else (⟨.Illegal, [c]⟩, cs)

/-- lexer.rs:4-162 `segment`'s loop. The first argument is fuel: every iteration consumes at least one
character, so the text's length suffices (`Proofs/Lexer.lean`, `segmentAux_fuel`). -/
def segmentAux : Nat → Str → List Token
  | _, [] => [Token.eof]
  | 0, _ :: _ => []
  | n + 1, c :: cs =>
    if isWs c then segmentAux n cs
    else (lexOne c cs).1 :: segmentAux n (lexOne c cs).2

/-- lexer.rs:4 `pub fn segment(text: &str) -> Vec<Token>`. -/
def segment (text : Str) : List Token := segmentAux text.length text

end Am
