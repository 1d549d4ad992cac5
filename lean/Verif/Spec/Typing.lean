import Verif.Spec.Eval
import Verif.Spec.Template
/-! # C130: a check of the kinds of values -/
namespace Am.Spec
open Am

/-- What is known about a value: nothing, its kind, the very text (`lit`), or that it is the map of a response with all its entries (`resp`). -/
inductive Ty where
  | any | null | int | float | bool | str | lit (s : Str) | arr | map | resp
  deriving DecidableEq

/-- A text. -/
def Ty.isText : Ty → Bool
  | .str | .lit _ => true
  | _ => false

/-- A map. -/
def Ty.isMap : Ty → Bool
  | .map | .resp => true
  | _ => false

/-- What is known about a value of which it is only known that one of two descriptions fits. -/
def Ty.join (a b : Ty) : Ty :=
  if a = b then a else if a.isText && b.isText then .str else if a.isMap && b.isMap then .map else .any

/-- What the entries of a response are. -/
def respEntry (n : Str) : Ty :=
  if n = c!"version" ∨ n = c!"reason" ∨ n = c!"body" then .str else if n = c!"status" then .int else if n = c!"headers" then .map else .any

/-- A description fits a value. -/
def HasTy {F : Type} : Ty → Value F → Prop
  | .any, _ => True
  | .null, v => v = .null
  | .int, v => ∃ i, v = .int i
  | .float, v => ∃ f, v = .float f
  | .bool, v => ∃ b, v = .bool b
  | .str, v => ∃ s, v = .str s
  | .lit s, v => v = .str s
  | .arr, v => ∃ l, v = .arr l
  | .map, v => ∃ m, v = .map m
  | .resp, v => ∃ m, v = .map m ∧ ∀ n, n ∈ [c!"version", c!"reason", c!"body", c!"status", c!"headers"] → ∃ w, amGet n m = some w ∧
      ((n = c!"version" ∨ n = c!"reason" ∨ n = c!"body") → ∃ s, w = .str s) ∧ (n = c!"status" → ∃ i, w = .int i) ∧ (n = c!"headers" → ∃ l, w = .map l)

/-- What is known about the variables. -/
abbrev Env := Str → Option Ty

/-- What is known after one of two ways. -/
def meet (a b : Env) : Env := fun x =>
  match a x, b x with
  | some s, some t => some (s.join t)
  | _, _ => none

/-- Arithmetic on numbers: integers give an integer, a float gives a float. -/
def numTy : Ty → Ty → Option Ty
  | .int, .int => some .int
  | .int, .float | .float, .int | .float, .float => some .float
  | _, _ => none

/-- The result of an operator that evaluates both sides; `none` if it may fail. -/
def opTy (k : Kind) (a b : Ty) : Option Ty :=
  match k with
  | .Lt | .Gt | .Le | .Ge | .Eq | .Ne => some .bool
  | .Add => if a.isText && b.isText then some .str else numTy a b
  | .Sub | .Mul | .Div | .Rem => numTy a b
  | .Bx | .Bo | .Ba | .Sl | .Sr => if a = .int ∧ b = .int then some .int else none
  | _ => none

/-- The result of `!` and of a minus sign. -/
def signTy (k : Kind) (a : Ty) : Option Ty :=
  match k, a with
  | .Not, .any => some .any
  | .Not, .int => some .int
  | .Not, _ => some .bool
  | .Sub, .int => some .int
  | .Sub, .float => some .float
  | _, _ => none

/-- The result of `l[i]`. -/
def indexTy : Ty → Ty → Option Ty
  | .arr, .int => some .any
  | .map, _ => some .any
  | .resp, .lit n => some (respEntry n)
  | .resp, _ => some .any
  | _, _ => none

/-- The result of `l.n`. -/
def fieldTy (n : Str) : Ty → Option Ty
  | .map => some .any
  | .resp => some (respEntry n)
  | _ => none

/-- The number of placeholders of a text (`c130_slots`). -/
def slots (s : Str) : Nat := (findTemplates s).length

/-- The arguments of `format`: a known text with as many placeholders as there are further arguments. -/
def fillsTy : List Ty → Bool
  | .lit s :: l => slots s == l.length
  | _ => false

variable {F : Type}

/-- The result of a call. -/
def callTy (table : List (Str × (Str × List (Expr F)))) (f : Str) (l : List Ty) : Option Ty :=
  match amGet f table with
  | some (_, asserts) => some (if (letsList asserts).isEmpty then .resp else .map)
  | none =>
    if f = c!"println" ∨ f = c!"print" then if fillsTy l then some .null else none
    else if f = c!"format" then if fillsTy l then some .str else none
    else if f = c!"length" then
      match l with
      | [a] => if a.isText || a.isMap || a == .arr then some .int else none
      | _ => none
    else if f = c!"append" then
      match l with
      | .arr :: _ => some .arr
      | _ => none
    else none

mutual
/-- What is known about the value of an expression and about the variables afterwards; `none` if the expression may fail. -/
def typeOf (table : List (Str × (Str × List (Expr F)))) : Expr F → Env → Option (Ty × Env)
  | .int _, g => some (.int, g)
  | .float _, g => some (.float, g)
  | .bool _, g => some (.bool, g)
  | .str s, g => some (.lit s, g)
  | .ident n, g => (g n).map fun t => (t, g)
  | .arr items, g => (typesOf table items g).map fun p => (.arr, p.2)
  | .map pairs, g => (typePairs table pairs g).map fun g => (.map, g)
  | .index l i, g => (typeOf table l g).bind fun p => (typeOf table i p.2).bind fun q => (indexTy p.1 q.1).map fun t => (t, q.2)
  | .field l n, g => (typeOf table l g).bind fun p => (fieldTy n p.1).map fun t => (t, p.2)
  | .letE n v, g => (typeOf table v g).map fun p => (p.1, fun x => if x = n then some p.1 else p.2 x)
  | .unary t r, g => (typeOf table r g).bind fun p => (signTy t.kind p.1).map fun a => (a, p.2)
  | .binary t l r, g => (typeOf table l g).bind fun p => (typeOf table r p.2).bind fun q =>
      if t.kind = .La ∨ t.kind = .Lo then some (p.1.join q.1, meet p.2 q.2) else (opTy t.kind p.1 q.1).map fun a => (a, q.2)
  | .paren v, g => typeOf table v g
  | .ifE c t e, g => (typeOf table c g).bind fun p => (typeBlock table t .null p.2).bind fun q => (typeBlock table e .null p.2).map fun r =>
      (q.1.join r.1, meet q.2 r.2)
  | .call f args, g => (typesOf table args g).bind fun p => (callTy table f p.1).map fun a => (a, p.2)
termination_by structural e => e
/-- The same for expressions evaluated one after the other. -/
def typesOf (table : List (Str × (Str × List (Expr F)))) : List (Expr F) → Env → Option (List Ty × Env)
  | [], g => some ([], g)
  | e :: l, g => (typeOf table e g).bind fun p => (typesOf table l p.2).map fun q => (p.1 :: q.1, q.2)
termination_by structural l => l
/-- The same for the pairs of a map literal. -/
def typePairs (table : List (Str × (Str × List (Expr F)))) : List (Expr F × Expr F) → Env → Option Env
  | [], g => some g
  | (k, v) :: l, g => (typeOf table k g).bind fun p => (typeOf table v p.2).bind fun q => typePairs table l q.2
termination_by structural l => l
/-- The same for a block, with what is known about its value so far. -/
def typeBlock (table : List (Str × (Str × List (Expr F)))) : List (Expr F) → Ty → Env → Option (Ty × Env)
  | [], t, g => some (t, g)
  | e :: l, _, g => (typeOf table e g).bind fun p => typeBlock table l p.1 p.2
termination_by structural l => l
end

/-- What is known about the variables is true. -/
def Meets (g : Env) (s : St F) : Prop := ∀ x t, g x = some t → ∃ v, s.ctx.get x = some v ∧ HasTy t v

/-- Whatever `g` says also follows from `g'`. -/
def Wider (g' g : Env) : Prop := ∀ x t, g x = some t → ∃ u, g' x = some u ∧ u.join t = t

end Am.Spec
