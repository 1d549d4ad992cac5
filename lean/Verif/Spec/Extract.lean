import Verif.Spec.Swap
/-!
# A name for an expression that occurs again (C112)
-/
namespace Am.Spec
open Am
variable {F : Type}

/-- The operators of the language between two operands. -/
def operators : List Kind := [.Add, .Sub, .Mul, .Div, .Rem, .Bx, .Bo, .Ba, .Sl, .Sr, .Lt, .Gt, .Le, .Ge, .Eq, .Ne, .La, .Lo]

mutual
/-- The second expression is the first one with the variable `x` in place of `e` at some places, possibly none. Apart from that neither uses `x`, also
not in the template of a request it calls, and neither sets `x` or a variable of `D`. -/
inductive Naming (table : List (Str × (Str × List (Expr F)))) (D : Str → Prop) (x : Str) (e : Expr F) : Expr F → Expr F → Prop
  | here : Naming table D x e e (.ident x)
  | int (i : Int64) : Naming table D x e (.int i) (.int i)
  | float (f : F) : Naming table D x e (.float f) (.float f)
  | bool (b : Bool) : Naming table D x e (.bool b) (.bool b)
  | str (s : Str) : Naming table D x e (.str s) (.str s)
  | ident {y : Str} : y ≠ x → Naming table D x e (.ident y) (.ident y)
  | arr {p q : List (Expr F)} : NamingList table D x e p q → Naming table D x e (.arr p) (.arr q)
  | map {p q : List (Expr F × Expr F)} : NamingPairs table D x e p q → Naming table D x e (.map p) (.map q)
  | index {l l' i i' : Expr F} : Naming table D x e l l' → Naming table D x e i i' → Naming table D x e (.index l i) (.index l' i')
  | field {l l' : Expr F} {n : Str} : Naming table D x e l l' → Naming table D x e (.field l n) (.field l' n)
  | letE {y : Str} {v v' : Expr F} : y ≠ x → ¬ D y → Naming table D x e v v' → Naming table D x e (.letE y v) (.letE y v')
  | unary {t : Token} {r r' : Expr F} : Naming table D x e r r' → Naming table D x e (.unary t r) (.unary t r')
  | binary {t : Token} {l l' r r' : Expr F} : t.kind ∈ operators → Naming table D x e l l' → Naming table D x e r r' →
      Naming table D x e (.binary t l r) (.binary t l' r')
  | paren {v v' : Expr F} : Naming table D x e v v' → Naming table D x e (.paren v) (.paren v')
  | ifE {c c' : Expr F} {t t' o o' : List (Expr F)} : Naming table D x e c c' → NamingList table D x e t t' → NamingList table D x e o o' →
      Naming table D x e (.ifE c t o) (.ifE c' t' o')
  | call {f : Str} {p q : List (Expr F)} : KnownCall table (· ≠ x) f → NamingList table D x e p q → Naming table D x e (.call f p) (.call f q)
/-- The same for every expression of a list. -/
inductive NamingList (table : List (Str × (Str × List (Expr F)))) (D : Str → Prop) (x : Str) (e : Expr F) : List (Expr F) → List (Expr F) → Prop
  | nil : NamingList table D x e [] []
  | cons {p q : Expr F} {ps qs : List (Expr F)} : Naming table D x e p q → NamingList table D x e ps qs → NamingList table D x e (p :: ps) (q :: qs)
/-- The same for the pairs of a map literal. -/
inductive NamingPairs (table : List (Str × (Str × List (Expr F)))) (D : Str → Prop) (x : Str) (e : Expr F) :
    List (Expr F × Expr F) → List (Expr F × Expr F) → Prop
  | nil : NamingPairs table D x e [] []
  | cons {k k' v v' : Expr F} {ps qs : List (Expr F × Expr F)} : Naming table D x e k k' → Naming table D x e v v' → NamingPairs table D x e ps qs →
      NamingPairs table D x e ((k, v) :: ps) ((k', v') :: qs)
end

/-- An expression that only computes, from variables of `D`: no `let`, no request, no printing. -/
structure OnlyComputes (table : List (Str × (Str × List (Expr F)))) (D : Str → Prop) (e : Expr F) : Prop where
  reads : KnownIn table D e
  sets : lets e = []
  quiet : QuietIn table [e]

end Am.Spec
