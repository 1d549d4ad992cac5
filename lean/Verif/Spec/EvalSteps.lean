import Verif.Spec.Growth
/-! # Scripts without branches -/
namespace Am.Spec
variable {F : Type}

mutual
/-- Nothing in the expression is evaluated only sometimes: no `if`, `&&` or `||`. -/
inductive Straight : Expr F → Prop
  | int (i) : Straight (.int i)
  | float (f) : Straight (.float f)
  | bool (b) : Straight (.bool b)
  | str (s) : Straight (.str s)
  | ident (n) : Straight (.ident n)
  | arr {l} : StraightAll l → Straight (.arr l)
  | map {l} : StraightPairs l → Straight (.map l)
  | index {l i} : Straight l → Straight i → Straight (.index l i)
  | field {l} (n) : Straight l → Straight (.field l n)
  | letE (n) {e} : Straight e → Straight (.letE n e)
  | unary (t) {r} : Straight r → Straight (.unary t r)
  | binary {t : Token} {l r} : t.kind ≠ .Lo → t.kind ≠ .La → Straight l → Straight r → Straight (.binary t l r)
  | paren {e} : Straight e → Straight (.paren e)
  | call (f) {l} : StraightAll l → Straight (.call f l)
/-- Several expressions. -/
inductive StraightAll : List (Expr F) → Prop
  | nil : StraightAll []
  | cons {e l} : Straight e → StraightAll l → StraightAll (e :: l)
/-- Entries of a map. -/
inductive StraightPairs : List (Expr F × Expr F) → Prop
  | nil : StraightPairs []
  | cons {k v l} : Straight k → Straight v → StraightPairs l → StraightPairs ((k, v) :: l)
end

end Am.Spec
