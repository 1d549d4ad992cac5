import Verif.Props.Semantics
import Verif.Props.Values
/-! # C26, C29: equality and the size of maps for values as they arise -/
set_option linter.unusedSectionVars false
namespace Am
open Spec
variable {F : Type} [Rt F]

/-- C26: `==` holds exactly between values of the same kind and content (the keys of maps being distinct, as in `c63_proper`). -/
theorem c26_equal (a b : Value F) (ha : Proper a) (hb : Proper b) : a.eq b = true ↔ Same a b := eq_same a b ha hb

/-- Concrete case: maps are compared regardless of the order of their keys; an array is not equal to a longer one. -/
example : Same (.map [(c!"a", .int 1), (c!"b", .null)] : Value F) (.map [(c!"b", .null), (c!"a", .int 1)]) ∧
    ¬Same (.arr [.int 1] : Value F) (.arr [.int 1, .int 2]) ∧ ¬Same (.map [(c!"a", .int 1)] : Value F) (.map [(c!"a", .int 1), (c!"b", .null)]) := by
  refine ⟨(c26_equal _ _ (.map (by simp) ?_) (.map (by simp) ?_)).1 ?_, fun h => ?_, fun h => ?_⟩
  · intro k v h
    simp only [List.mem_cons, Prod.mk.injEq, List.not_mem_nil, or_false] at h
    rcases h with ⟨_, rfl⟩ | ⟨_, rfl⟩
    · exact .int _
    · exact .null
  · intro k v h
    simp only [List.mem_cons, Prod.mk.injEq, List.not_mem_nil, or_false] at h
    rcases h with ⟨_, rfl⟩ | ⟨_, rfl⟩
    · exact .null
    · exact .int _
  · simp [Value.eq, Value.eqPairs, amGet]
  · cases h with
    | arr h _ => simp at h
  · cases h with
    | map h _ => have := h c!"b"; simp [amGet] at this

/-- C29: the size of a map that a script computed is the number of its keys. -/
theorem c29_length_computed (net : Net) (block : List (Expr F)) (s : St F) (hs : Proper (.map s.ctx.inner)) (m : List (Str × Value F))
    (h : (runBlock net block s).1 = .ok (.map m)) (hl : m.length < 2 ^ 63) :
    ∃ (i : Int64) (keys : List Str), nativeLength [.map m] = .ok (.int i) ∧ i.toInt = keys.length ∧ keys.Nodup ∧
      (∀ k, k ∈ keys ↔ ∃ v, amGet k m = some v) := by
  have := (c63_proper net block s hs).2 _ h
  cases this with
  | map hn _ => exact c29_length_map m hn hl

/-- Concrete case: a key given twice counts once. -/
example (net : Net) : (runBlock net [.map [(.str c!"a", .int 1), (.str c!"a", .int 2)]] (⟨⟨[], [], []⟩, [], []⟩ : St F)).1 =
    .ok (.map [(c!"a", .int 2)]) := rfl

end Am
