import Verif.Model.Command
import Verif.Spec.Basic
/-! # What the command line should do -/
namespace Am.Spec
open Am
variable {F : Type} [Rt F]

/-! ## The REPL -/

/-- Only white space. -/
def Blank (t : Str) : Prop := ∀ c ∈ t, isWs c = true

/-- `Session net s lines s'`: reading `lines`, none of them `exit`, in state `s` leads to state `s'`. -/
inductive Session (net : Net) : St F → List Input → St F → Prop where
  | nil (s : St F) : Session net s [] s
  | bad {s s' rest} : Session net s rest s' → Session net s (.bad :: rest) s'
  | blank {s s' t rest} : Blank t → Session net s rest s' → Session net s (.line t :: rest) s'
  /-- a line that does not parse: only a message is printed -/
  | unparsed {s s' t e rest} : t ≠ c!"exit" → ¬ Blank t → (parse t : Res (Source F)) = .err e →
      Session net { s with out := s.out ++ e ++ c!"\n" } rest s' → Session net s (.line t :: rest) s'
  /-- a line that evaluates: its requests are added, then its expressions run, then the value is printed -/
  | value {s s1 s' t src v rest} : t ≠ c!"exit" → ¬ Blank t → (parse t : Res (Source F)) = .ok src →
      runBlock net src.exprs { s with ctx := s.ctx.extend src.requests } = (.ok v, s1) →
      Session net { s1 with out := s1.out ++ v.display ++ c!"\n" } rest s' → Session net s (.line t :: rest) s'
  /-- a line that fails: the state is the one in which the failure happened -/
  | failed {s s1 s' t src e rest} : t ≠ c!"exit" → ¬ Blank t → (parse t : Res (Source F)) = .ok src →
      runBlock net src.exprs { s with ctx := s.ctx.extend src.requests } = (.err e, s1) →
      Session net { s1 with out := s1.out ++ e ++ c!"\n" } rest s' → Session net s (.line t :: rest) s'

/-! ## Source files -/

/-- A file name with the extension `fan`. -/
def FanName (name : Str) : Prop := ∃ stem, stem ≠ [] ∧ name = stem ++ c!".fan"

/-- Order of paths, component by component. -/
inductive PathLt : List Str → List Str → Prop where
  | nil {b r} : PathLt [] (b :: r)
  | head {a b l r} : TextLt a b → PathLt (a :: l) (b :: r)
  | tail {a l r} : PathLt l r → PathLt (a :: l) (a :: r)

mutual
/-- `path` with content `c` is a file with extension `fan` at or below a node called `name`. -/
inductive Below : Str → Node → List Str → Option Str → Prop where
  | file {name c} : FanName name → Below name (.file c) [] c
  | dir {name es n path c} : BelowIn es n path c → Below name (.dir es) (n :: path) c
/-- The same below one of the entries of a directory. -/
inductive BelowIn : List (Str × Node) → Str → List Str → Option Str → Prop where
  | here {n d rest path c} : Below n d path c → BelowIn ((n, d) :: rest) n path c
  | there {e rest n path c} : BelowIn rest n path c → BelowIn (e :: rest) n path c
end

mutual
/-- In every directory the names are distinct. -/
inductive Distinct : Node → Prop where
  | file {c} : Distinct (.file c)
  | other : Distinct .other
  | dir {es} : (es.map Prod.fst).Nodup → DistinctIn es → Distinct (.dir es)
/-- The same for the entries. -/
inductive DistinctIn : List (Str × Node) → Prop where
  | nil : DistinctIn []
  | cons {n d rest} : Distinct d → DistinctIn rest → DistinctIn ((n, d) :: rest)
end

/-! ## Durations -/

/-- Seconds per unit. -/
def unitSeconds : Char → Option Nat
  | 's' => some 1
  | 'm' => some 60
  | 'h' => some 3600
  | _ => none

end Am.Spec
