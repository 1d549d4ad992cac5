import Verif.Spec.Lexer
/-! # How a source file ends, and which files may follow it -/
namespace Am.Spec

/-- How a source file ends. -/
inductive FileEnd where
  /-- nothing, or white space -/
  | blank
  /-- directly after a token -/
  | token (t : Token)
  /-- inside a text opened by this quote -/
  | quote (q : Char)

/-- The file ends like this. -/
inductive EndsWith : Str → FileEnd → Prop
  | blank (ws : Str) : AllWs ws → EndsWith ws .blank
  | last (ws : Str) (t : Token) : AllWs ws → TokenOk t → EndsWith (ws ++ spell t) (.token t)
  | openString (ws lit : Str) : AllWs ws → '"' ∉ lit → EndsWith (ws ++ ['"'] ++ lit) (.quote '"')
  | openTemplate (ws lit : Str) : AllWs ws → '`' ∉ lit → EndsWith (ws ++ ['`'] ++ lit) (.quote '`')
  | tok (ws : Str) (t : Token) (rest : Str) (e : FileEnd) :
      AllWs ws → TokenOk t → NoExt t rest → rest ≠ [] → EndsWith rest e → EndsWith (ws ++ spell t ++ rest) e

/-- Quotes with nothing but white space around them, such that it does not matter whether the first of them opens or closes a text: `w " w`
with the same `w`, possibly after pairs of the same form. -/
inductive Twins (q : Char) : Str → Prop
  | last (w : Str) : AllWs w → Twins q (w ++ [q] ++ w)
  | more (w r : Str) : AllWs w → Twins q r → Twins q (w ++ [q] ++ w ++ [q] ++ r)

/-- What may follow a file that ends like this: after a token, no character that would continue it; after an open quote, nothing, or the
closing quote followed by quotes of which it does not matter whether they open or close. -/
def MayFollow : FileEnd → Str → Prop
  | .blank, _ => True
  | .token t, b => NoExt t b
  | .quote q, b => b = [] ∨ ∃ r, b = q :: r ∧ Twins q r

end Am.Spec
