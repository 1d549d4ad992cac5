import Verif.Model.Exit
/-! # The two build profiles (C86) -/
namespace Am.Spec
open Am
variable {F : Type}

/-- A debug build: integer overflow is checked. Everything else is as in `i`. -/
abbrev debugBuild (i : Rt F) : Rt F := { i with checks := true }

/-- A release build: integers wrap around. -/
abbrev releaseBuild (i : Rt F) : Rt F := { i with checks := false }

/-- What the first has sent and printed is the beginning of what the second has sent and printed. -/
def RunsOn (s t : St F) : Prop := (∃ more, t.sent = s.sent ++ more) ∧ ∃ more, t.out = s.out ++ more

/-- The build used is `i`, and no thread crashes in its test on the way. -/
inductive Untroubled (i : Rt F) (cfg : Config) : Run F → List RunStep → Prop
  | nil (r : Run F) : Untroubled i cfg r []
  | cons {r r' : Run F} {s : RunStep} {l : List RunStep} :
      (∀ k net w, s = .work k net → r.workers[k]? = some w → w.pc = .eval → (@runBlock F i net w.test ⟨w.ctx, [], []⟩).1 ≠ .panic) →
      @Run.step F i cfg r s = some r' → Untroubled i cfg r' l → Untroubled i cfg r (s :: l)

end Am.Spec
