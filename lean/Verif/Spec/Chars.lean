import Verif.Model.Basic
/-! # Sets of characters, listed -/
namespace Am.Spec
open Am

/-- The characters with the Unicode property `White_Space` (Unicode Character Database, `PropList.txt`): tab, line feed, vertical tab, form feed, carriage
return, space, next line, no-break space, Ogham space mark, the spaces from en quad to hair space, line and paragraph separator, narrow no-break space,
medium mathematical space and ideographic space. -/
def whiteSpaces : Str :=
  ['\u0009', '\u000A', '\u000B', '\u000C', '\u000D', '\u0020', '\u0085', '\u00A0', '\u1680', '\u2000', '\u2001', '\u2002', '\u2003',
    '\u2004', '\u2005', '\u2006', '\u2007', '\u2008', '\u2009', '\u200A', '\u2028', '\u2029', '\u202F', '\u205F', '\u3000']

/-- The ASCII digits. -/
def asciiDigits : Str := c!"0123456789"

/-- The ASCII letters. -/
def asciiLetters : Str := c!"ABCDEFGHIJKLMNOPQRSTUVWXYZabcdefghijklmnopqrstuvwxyz"

end Am.Spec
