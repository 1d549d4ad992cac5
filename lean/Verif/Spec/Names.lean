import Verif.Spec.Parens
import Verif.Spec.Template
/-! # Consistent renaming of variables and requests (C98) -/
namespace Am.Spec
open Am
variable {F : Type}

mutual
/-- The expression with its variables renamed by `v` and the functions it calls by `f`. -/
def renamed (v f : Str → Str) : Expr F → Expr F
  | .int i => .int i
  | .float x => .float x
  | .bool b => .bool b
  | .str s => .str s
  | .ident n => .ident (v n)
  | .arr items => .arr (renamedList v f items)
  | .map pairs => .map (renamedPairs v f pairs)
  | .index l i => .index (renamed v f l) (renamed v f i)
  | .field l n => .field (renamed v f l) n
  | .letE n e => .letE (v n) (renamed v f e)
  | .unary t r => .unary t (renamed v f r)
  | .binary t l r => .binary t (renamed v f l) (renamed v f r)
  | .paren e => .paren (renamed v f e)
  | .ifE c t e => .ifE (renamed v f c) (renamedList v f t) (renamedList v f e)
  | .call n args => .call (f n) (renamedList v f args)
termination_by structural e => e
/-- Each expression renamed. -/
def renamedList (v f : Str → Str) : List (Expr F) → List (Expr F)
  | [] => []
  | e :: l => renamed v f e :: renamedList v f l
termination_by structural l => l
/-- Each pair of a map literal renamed. -/
def renamedPairs (v f : Str → Str) : List (Expr F × Expr F) → List (Expr F × Expr F)
  | [] => []
  | (k, e) :: l => (renamed v f k, renamed v f e) :: renamedPairs v f l
termination_by structural l => l
end

/-- A placeholder with its variable renamed. -/
def Piece.renamed (v : Str → Str) : Piece → Piece
  | .lit c => .lit c
  | .hole n => .hole (v n)

/-- The same text but for the variables in its placeholders (and the spaces around them). -/
def RenamedText (v : Str → Str) (m m' : Str) : Prop := ∃ ps, Pieces m ps ∧ Pieces m' (ps.map (Piece.renamed v))

/-- A name as the language knows it. -/
def IsName (n : Str) : Prop := ∃ first rest, n = first :: rest ∧ isWordStart first = true ∧ ∀ c ∈ rest, isWordChar c = true

/-- The functions every script can call. -/
def builtin : List Str := [c!"println", c!"print", c!"format", c!"length", c!"append"]

/-- A renaming keeps different names different, and does not touch the builtin functions. -/
structure Renaming (v f : Str → Str) : Prop where
  variables : ∀ a b, v a = v b → a = b
  functions : ∀ a b, f a = f b → a = b
  builtins : ∀ n ∈ builtin, f n = n

/-- Two definitions of a request: its name and the variables in its message are renamed. Asserts know only the response, so nothing changes in them. -/
def RenamedDefinition (v f : Str → Str) (p p' : Str × (Str × List (Expr F))) : Prop := p'.1 = f p.1 ∧ RenamedText v p.2.1 p'.2.1 ∧ p'.2.2 = p.2.2

/-- Two items in this sense. The names of tests stay. -/
inductive RenamedItem (v f : Str → Str) : Item F → Item F → Prop
  | expr (e : Expr F) : RenamedItem v f (.expr e) (.expr (renamed v f e))
  | request (n m m' : Str) (as : List (Expr F)) : RenamedText v m m' → RenamedItem v f (.request n m as) (.request (f n) m' as)
  | test (n : Str) (b : List (Expr F)) : RenamedItem v f (.test n b) (.test n (renamedList v f b))

/-- The same records, with the names of the requests renamed. -/
def renamedRecord (f : Str → Str) (r : Record) : Record := { r with name := f r.name }

/-- The same variables under their new names, the requests renamed, the same exchanges, the same messages sent and the same text printed. -/
structure RenamedSt (v f : Str → Str) (s s' : St F) : Prop where
  variables : s'.ctx.inner = s.ctx.inner.map fun p => (v p.1, p.2)
  requests : Each (RenamedDefinition v f) s.ctx.requests s'.ctx.requests
  records : s'.ctx.records = s.ctx.records.map (renamedRecord f)
  sent : s'.sent = s.sent
  out : s'.out = s.out

/-- Two error texts: the same, or those for an unknown variable or function under its old and new name. -/
inductive RenamedError (v f : Str → Str) : Str → Str → Prop
  | same (e : Str) : RenamedError v f e e
  | variable (n : Str) : RenamedError v f (c!"ident:" ++ n ++ c!" not found") (c!"ident:" ++ v n ++ c!" not found")
  | function (n : Str) : RenamedError v f (c!"function " ++ n ++ c!" not found") (c!"function " ++ f n ++ c!" not found")

/-- Two outcomes: the same, but for a name in the error text. -/
inductive RenamedRes {α : Type} (v f : Str → Str) : Res α → Res α → Prop
  | ok (a : α) : RenamedRes v f (.ok a) (.ok a)
  | err (e e' : Str) : RenamedError v f e e' → RenamedRes v f (.err e) (.err e')
  | panic : RenamedRes v f .panic .panic
  | hang : RenamedRes v f .hang .hang

/-- The states differ only in names; the last line printed may be the error about an unknown name. -/
inductive RenamedSaid (v f : Str → Str) : St F → St F → Prop
  | same {s s' : St F} : RenamedSt v f s s' → RenamedSaid v f s s'
  | error {s s' : St F} (e e' : Str) : RenamedSt v f s s' → RenamedError v f e e' →
      RenamedSaid v f { s with out := s.out ++ e ++ c!"\n" } { s' with out := s'.out ++ e' ++ c!"\n" }

/-- Two threads about to do the same under other names. -/
structure WorkerRenamed (v f : Str → Str) (w w' : Worker F) : Prop where
  pc : w.pc = w'.pc
  name : w.name = w'.name
  test : w'.test = renamedList v f w.test
  ctx : RenamedSt v f ⟨w.ctx, [], []⟩ ⟨w'.ctx, [], []⟩
  number : w.number = w'.number
  file : w.file = w'.file
  known : ∀ e ∈ w.test, KnownOps e

/-- `am test` has come to the same under other names. -/
inductive StartedRenamed (v f : Str → Str) : Started F → Started F → Prop
  | ended : StartedRenamed v f .ended .ended
  | panicked : StartedRenamed v f .panicked .panicked
  | endless : StartedRenamed v f .endless .endless
  | threads (cfg : Config) (ws ws' : List (Worker F)) : Each (WorkerRenamed v f) ws ws' → StartedRenamed v f (.threads cfg ws) (.threads cfg ws')

end Am.Spec
