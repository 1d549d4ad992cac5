import Verif.Spec.Program
import Verif.Spec.Command
/-! # A script given piece by piece -/
namespace Am.Spec
open Am
variable {F : Type} [Rt F]

/-- The text is a program of its own, with these items and without an open quote. -/
def Standalone (text : Str) (items : List (Item F)) : Prop := ∃ tokens, Layout true text tokens ∧ Program tokens items

/-- The first character that is not white space is none of those that could also continue an expression written before: `!`, `-`, `(`, `[`. -/
def NewStart (text : Str) : Prop := ∀ ws c r, text = ws ++ c :: r → AllWs ws → isWs c = false → c ∉ c!"!-(["

/-- The pieces as one text: every piece on a line of its own. -/
def unlines : List Str → Str
  | [] => []
  | l :: ls => l ++ '\n' :: unlines ls

mutual
/-- The names an expression calls. -/
def called : Expr F → List Str
  | .int _ | .float _ | .bool _ | .str _ | .ident _ => []
  | .arr items => calledList items
  | .map pairs => calledPairs pairs
  | .index l i => called l ++ called i
  | .field l _ => called l
  | .letE _ v => called v
  | .unary _ r => called r
  | .binary _ l r => called l ++ called r
  | .paren v => called v
  | .ifE c t e => called c ++ (calledList t ++ calledList e)
  | .call f args => f :: calledList args
termination_by structural e => e
/-- The names that a list of expressions calls. -/
def calledList : List (Expr F) → List Str
  | [] => []
  | e :: l => called e ++ calledList l
termination_by structural l => l
/-- The names that the pairs of a map literal call. -/
def calledPairs : List (Expr F × Expr F) → List Str
  | [] => []
  | (k, v) :: l => called k ++ (called v ++ calledPairs l)
termination_by structural l => l
end

/-- The names of the requests that the items define. -/
def defined : List (Item F) → List Str
  | [] => []
  | .request n _ _ :: items => n :: defined items
  | _ :: items => defined items

/-- The state with the requests of the items added. -/
def withItems (s : St F) (items : List (Item F)) : St F := { s with ctx := { s.ctx with requests := addRequests items s.ctx.requests } }

/-- The pieces one after the other, each in the state the previous one left, and each with a value: what each prints, its value, and the state
after showing the value. -/
inductive RunsPieces (net : Net) : St F → List (List (Item F)) → List (Str × Value F) → St F → Prop
  | nil (s : St F) : RunsPieces net s [] [] s
  | cons {s s1 s' : St F} {items : List (Item F)} {rest : List (List (Item F))} {o : Str} {v : Value F} {outs : List (Str × Value F)} :
      RunsBlock net .null (exprsOf items) (withItems s items) (.ok v) s1 → s1.out = s.out ++ o →
      RunsPieces net { s1 with out := s1.out ++ v.display ++ c!"\n" } rest outs s' → RunsPieces net s (items :: rest) ((o, v) :: outs) s'

/-- No piece calls a request that a later piece defines. -/
inductive InOrder : List (List (Item F)) → Prop
  | nil : InOrder []
  | cons {items : List (Item F)} {rest : List (List (Item F))} :
      (∀ later ∈ rest, ∀ n ∈ defined later, n ∉ calledList (exprsOf items)) → InOrder rest → InOrder (items :: rest)

end Am.Spec
