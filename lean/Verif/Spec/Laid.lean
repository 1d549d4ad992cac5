import Verif.Spec.Template
import Verif.Spec.Message
import Verif.Spec.Parens
/-!
# The layout of messages (C117)

A message is a text with placeholders (`Spec/Template.lean`). The relations below say when two messages differ only in how they are laid out: white space
before and after the message, blanks at the ends of the lines of its head, blanks between the words of its first line, blanks around the colon of a header,
and line ends with or without a carriage return.
-/
namespace Am.Spec
open Am

/-- White space inside a line. -/
def Gap (g : List Piece) : Prop := ∀ p ∈ g, ∃ c, p = .lit c ∧ isWs c = true ∧ c ≠ '\n'

/-- White space, also of several lines. -/
def Space (g : List Piece) : Prop := ∀ p ∈ g, ∃ c, p = .lit c ∧ isWs c = true

/-- No line feed outside placeholders. -/
def Unbroken (l : List Piece) : Prop := .lit '\n' ∉ l

/-- Something other than white space outside placeholders. -/
def Solid (l : List Piece) : Prop := ∃ c, .lit c ∈ l ∧ isWs c = false

/-- A line feed, or a carriage return and a line feed. -/
def LineEnd (e : List Piece) : Prop := e = [.lit '\n'] ∨ e = [.lit '\r', .lit '\n']

/-- Bodies: only the line ends may differ. -/
inductive LaidBody : List Piece → List Piece → Prop
  | last (l : List Piece) : Unbroken l → LaidBody l l
  | line (l e e' r r' : List Piece) : Unbroken l → .lit '\r' ∉ l → LineEnd e → LineEnd e' → LaidBody r r' → LaidBody (l ++ e ++ r) (l ++ e' ++ r')

/-- Header lines: the same, or with other blanks around the first colon. -/
inductive LaidLine : List Piece → List Piece → Prop
  | same (l : List Piece) : Unbroken l → LaidLine l l
  | colon (n g h g' h' v : List Piece) : (∀ p ∈ n, ∃ c, p = .lit c ∧ c ≠ ':' ∧ c ≠ '\n') → Gap g → Gap h → Gap g' → Gap h' → Unbroken v →
      LaidLine (n ++ g ++ .lit ':' :: (h ++ v)) (n ++ g' ++ .lit ':' :: (h' ++ v))

/-- What follows the first line: header lines with other blanks at their ends up to the blank line, then the body. A line that may be blank or not, because
it has nothing but placeholders, must fit in both ways. -/
inductive LaidHead : List Piece → List Piece → Prop
  | last (g l e g' l' e' : List Piece) : Gap g → Gap e → Gap g' → Gap e' → LaidLine l l' → LaidHead (g ++ l ++ e) (g' ++ l' ++ e')
  | line (g l e r g' l' e' r' : List Piece) : Gap g → Gap e → Gap g' → Gap e' → LaidLine l l' → Solid l → LaidHead r r' →
      LaidHead (g ++ l ++ e ++ .lit '\n' :: r) (g' ++ l' ++ e' ++ .lit '\n' :: r')
  | blank (g r g' r' : List Piece) : Gap g → Gap g' → LaidBody r r' → LaidHead (g ++ .lit '\n' :: r) (g' ++ .lit '\n' :: r')
  | either (g l e r g' e' r' : List Piece) : Gap g → Gap e → Gap g' → Gap e' → Unbroken l → LaidHead r r' → LaidBody r r' →
      LaidHead (g ++ l ++ e ++ .lit '\n' :: r) (g' ++ l ++ e' ++ .lit '\n' :: r')

/-- First lines: other blanks between the words. -/
inductive LaidWords : List Piece → List Piece → Prop
  | one (w : List Piece) : Unbroken w → LaidWords w w
  | cons (w g r g' r' : List Piece) : Unbroken w → Gap g → Gap g' → g ≠ [] → g' ≠ [] → LaidWords r r' → LaidWords (w ++ g ++ r) (w ++ g' ++ r')

/-- Whole messages. -/
inductive Laid : List Piece → List Piece → Prop
  | one (b w e b' w' e' : List Piece) : Space b → Gap e → Space b' → Gap e' → LaidWords w w' → Laid (b ++ w ++ e) (b' ++ w' ++ e')
  | more (b w e r b' w' e' r' : List Piece) : Space b → Gap e → Space b' → Gap e' → LaidWords w w' → Solid w → LaidHead r r' →
      Laid (b ++ w ++ e ++ .lit '\n' :: r) (b' ++ w' ++ e' ++ .lit '\n' :: r')
  | either (b w e r b' w' e' r' : List Piece) : Space b → Gap e → Space b' → Gap e' → LaidWords w w' → LaidHead r r' → Laid r r' →
      Laid (b ++ w ++ e ++ .lit '\n' :: r) (b' ++ w' ++ e' ++ .lit '\n' :: r')

/-- A text that stays in its line. -/
def InLine (s : Str) : Prop := '\n' ∉ s ∧ '\r' ∉ s

/-- Two templates that differ only in layout. -/
def LaidText (m m' : Str) : Prop := ∃ ps ps', Pieces m ps ∧ Pieces m' ps' ∧ Laid ps ps'

/-! ## Runs -/

/-- Two texts that are the same request with the same content. -/
def SameRequest (mp : List Part → Option (List UInt8)) (m m' : Str) : Prop := Request.ofStr mp m = Request.ofStr mp m'

/-- What servers answer depends on the requests they get, not on how the messages for them were laid out. -/
def SeesRequests (net : Net) : Prop :=
  ∀ h h' m m', Each (SameRequest net.multipart) h h' → SameRequest net.multipart m m' → net.exch h m = net.exch h' m'

variable {F : Type} [Rt F]

/-- Two definitions of a request whose messages are related by `R`. -/
def ChangedDefinition (R : Str → Str → Prop) (p p' : Str × (Str × List (Expr F))) : Prop := p.1 = p'.1 ∧ R p.2.1 p'.2.1 ∧ p.2.2 = p'.2.2

/-- Two states that differ only in messages related by `R`. -/
structure SameButMessages (R : Str → Str → Prop) (mp : List Part → Option (List UInt8)) (s s' : St F) : Prop where
  variables : s.ctx.inner = s'.ctx.inner
  requests : Each (ChangedDefinition R) s.ctx.requests s'.ctx.requests
  records : s.ctx.records = s'.ctx.records
  sent : Each (SameRequest mp) s.sent s'.sent
  out : s.out = s'.out

/-- Two items in this sense. -/
inductive ChangedItem (R : Str → Str → Prop) : Item F → Item F → Prop
  | expr (e : Expr F) : ChangedItem R (.expr e) (.expr e)
  | request (n m m' : Str) (as : List (Expr F)) : R m m' → ChangedItem R (.request n m as) (.request n m' as)
  | test (n : Str) (b : List (Expr F)) : ChangedItem R (.test n b) (.test n b)

/-- Two definitions of a request whose messages differ only in layout. -/
abbrev LaidDefinition (p p' : Str × (Str × List (Expr F))) : Prop := ChangedDefinition LaidText p p'

/-- Two states that differ only in the layout of messages. -/
abbrev SameButLaid (mp : List Part → Option (List UInt8)) (s s' : St F) : Prop := SameButMessages LaidText mp s s'

/-- Two items that differ only in the layout of messages. -/
abbrev LaidItem (i i' : Item F) : Prop := ChangedItem LaidText i i'

/-- The text a variable has in a message. -/
def inserted (vars : List (Str × Value F)) (n : Str) : Str :=
  match amGet n vars with
  | some v => v.display
  | none => c!"null"

/-- All values for the placeholders of the message stay in their lines. -/
def StaysInLine (vars : List (Str × Value F)) (message : Str) : Prop := ∀ ps n, Pieces message ps → .hole n ∈ ps → InLine (inserted vars n)

open Classical in
/-- Calls that hold the run when the variables do not suit the message. -/
noncomputable def careful (ok : List (Str × Value F) → Str → Prop) (call : Call F) : Call F := fun name args s =>
  match s.ctx.request name with
  | some (message, _) => if ok s.ctx.inner message then call name args s else (.hang, s)
  | none => call name args s

/-- In this run, whenever a request is called, the variables suit its message: careful calls do not hold it. -/
def RunKeeps (ok : List (Str × Value F) → Str → Prop) (net : Net) (es : List (Expr F)) (s : St F) : Prop :=
  (evalBlock (careful ok (callAt net 1)) .null es s).1 ≠ .hang

/-- In this run, whenever a request is called, all values for the placeholders of its message stay in their lines. -/
abbrev RunStaysInLine (net : Net) (es : List (Expr F)) (s : St F) : Prop := RunKeeps StaysInLine net es s

end Am.Spec
