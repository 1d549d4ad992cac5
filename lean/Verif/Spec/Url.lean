import Verif.Spec.Basic
import Verif.Model.Http
/-! # The parts of a URL -/
namespace Am.Spec
open Am

/-- The text contains `://`. -/
def HasSep (s : Str) : Prop := ∃ a b, s = a ++ c!"://" ++ b

/-- A host as written before the port and path: no `/` and no `:`. -/
def PlainHost (h : Str) : Prop := '/' ∉ h ∧ ':' ∉ h

/-- The text of a port: nothing, or a colon and decimal digits whose value is at most 65535. -/
inductive PortText (default : Nat) : Str → Nat → Prop
  | absent : PortText default [] default
  | digits (ds : Str) : ds ≠ [] → (∀ c ∈ ds, '0' ≤ c ∧ c ≤ '9') → decimal ds ≤ 65535 → PortText default (':' :: ds) (decimal ds)

/-- The text of a path: nothing, denoting `/`, or a text that starts with `/`. -/
inductive PathText : Str → Str → Prop
  | absent : PathText [] c!"/"
  | given (p : Str) : PathText ('/' :: p) ('/' :: p)

/-- The well-known port of a scheme. -/
def wellKnown : Scheme → Nat
  | .Http => 80
  | .Https => 443

/-- The first `://` of the text stands between the two parts. -/
def FirstSep (s a b : Str) : Prop := s = a ++ c!"://" ++ b ∧ ∀ a' b', s = a' ++ c!"://" ++ b' → a.length ≤ a'.length

/-- The text before the first `://`; all of it if there is none. -/
def BeforeSep (s a : Str) : Prop := (¬HasSep s ∧ a = s) ∨ ∃ b, FirstSep s a b

/-- The number of a port: decimal digits, possibly with a plus sign in front, of a value of at most 65535. -/
inductive PortNumber : Str → Nat → Prop
  | digits (ds : Str) : ds ≠ [] → (∀ c ∈ ds, '0' ≤ c ∧ c ≤ '9') → decimal ds ≤ 65535 → PortNumber ds (decimal ds)
  | plus (ds : Str) : ds ≠ [] → (∀ c ∈ ds, '0' ≤ c ∧ c ≤ '9') → decimal ds ≤ 65535 → PortNumber ('+' :: ds) (decimal ds)

/-- What the program reads after the host: nothing, a colon and a port number, or a colon and something else, which stands for the default. -/
inductive PortRead (default : Nat) : Str → Nat → Prop
  | absent : PortRead default [] default
  | number {t : Str} {n : Nat} : PortNumber t n → PortRead default (':' :: t) n
  | other {t : Str} : (∀ n, ¬PortNumber t n) → PortRead default (':' :: t) default

/-- What the program reads as the scheme: `https`, or anything else for `http`. -/
inductive SchemeRead : Str → Scheme → Prop
  | https : SchemeRead c!"https" .Https
  | other {t : Str} : t ≠ c!"https" → SchemeRead t .Http

/-- What the program reads from any text as a URL. -/
inductive UrlRead : Str → Url → Prop
  | bare {s : Str} {sc : Scheme} : ¬HasSep s → SchemeRead s sc → UrlRead s ⟨sc, c!"localhost", wellKnown sc, c!"/"⟩
  | parts {s a b host pt pathText path : Str} {sc : Scheme} {port : Nat} : FirstSep s a b → SchemeRead a sc →
      BeforeSep b (host ++ pt ++ pathText) → PlainHost host → '/' ∉ pt → PortRead (wellKnown sc) pt port → PathText pathText path →
      UrlRead s ⟨sc, host, port, path⟩

end Am.Spec
