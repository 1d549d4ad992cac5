import Verif.Spec.Json
import Verif.Spec.Float64
/-! # JSON numbers as floats, and documents that are read as they are (C44) -/
namespace Am.Spec
open Am

/-- The digits behind the point. -/
def JNum.decimals (n : JNum) : Str := n.frac.getD []

/-- The power of ten that is written. -/
def JNum.power (n : JNum) : Int :=
  match n.exp with
  | none => 0
  | some (_, some '-', d) => -(decimal d : Int)
  | some (_, _, d) => decimal d

/-- A number without sign and exponent; an integer fits into 64 bits. -/
def SimpleNum (n : JNum) : Prop := n.neg = false ∧ n.exp = none ∧ (n.frac = none → decimal n.int ≤ 9223372036854775807)

mutual
/-- A document without escapes, negative numbers, exponents and large integers. -/
def SimpleJson : JsonDoc → Prop
  | .null | .bool _ => True
  | .num n => SimpleNum n
  | .str s => PlainStr s
  | .arr js => SimpleAll js
  | .obj ms => SimpleMembers ms
termination_by structural j => j
/-- All items. -/
def SimpleAll : List JsonDoc → Prop
  | [] => True
  | j :: js => SimpleJson j ∧ SimpleAll js
termination_by structural l => l
/-- All members. -/
def SimpleMembers : List (List JChar × JsonDoc) → Prop
  | [] => True
  | (k, j) :: ms => PlainStr k ∧ SimpleJson j ∧ SimpleMembers ms
termination_by structural l => l
end

end Am.Spec
