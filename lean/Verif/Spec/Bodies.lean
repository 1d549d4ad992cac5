import Verif.Spec.Growth
/-! # How much a response contains, and which maps have plain keys -/
namespace Am.Spec
variable {F : Type}

/-- The characters of the headers, and one for each. -/
def headersExtent : List Header → Nat
  | [] => 0
  | h :: l => 1 + h.name.length + h.value.length + headersExtent l

/-- The characters of a response, one for each header, and one for the rest. -/
def extent (r : Response) : Nat := 1 + r.version.length + r.reason.length + headersExtent r.headers + r.body.length

/-- The key of a map is no array and no map itself. -/
def plainKey : Expr F → Prop
  | .arr _ | .map _ => False
  | _ => True

mutual
/-- The keys of all maps are plain, as far as the literal is nested. -/
def PlainKeys : Expr F → Prop
  | .arr items => PlainKeysAll items
  | .map pairs => PlainKeysPairs pairs
  | _ => True
termination_by structural e => e
/-- Several expressions. -/
def PlainKeysAll : List (Expr F) → Prop
  | [] => True
  | e :: l => PlainKeys e ∧ PlainKeysAll l
termination_by structural l => l
/-- Entries of a map. -/
def PlainKeysPairs : List (Expr F × Expr F) → Prop
  | [] => True
  | (k, v) :: l => plainKey k ∧ PlainKeys v ∧ PlainKeysPairs l
termination_by structural l => l
end

end Am.Spec
