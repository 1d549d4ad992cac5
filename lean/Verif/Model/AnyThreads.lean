import Verif.Model.AnyOrder
import Verif.Model.TestRun
/-!
# Runs of tests when hash maps list their entries in any order

As Model/TestRun.lean, but the evaluation of the test is the relation of Model/AnyOrder.lean: every iteration of every thread may end in any of the possible ways.
-/
namespace Am
variable {F : Type} [Rt F]

/-- command.rs:96-106 and 131-139: a worker after the evaluation of its test came to `x`. -/
def Worker.evaluated (cfg : Config) (w : Worker F) (x : Res (Value F) × St F) : Worker F × Effect :=
  match x with
  | (.ok _, s) => ({ w with pc := .print s.ctx.records s.ctx.records, ctx := { s.ctx with records := [] } }, ⟨[s.out], []⟩)
  | (.err e, s) =>
    if cfg.named then ({ w with pc := .done, ctx := s.ctx }, ⟨[s.out, e ++ c!"\n"], []⟩)
    else ({ w with pc := .print s.ctx.records s.ctx.records, ctx := { s.ctx with records := [] } }, ⟨[s.out, e ++ c!"\n"], []⟩)
  | (.panic, s) => ({ w with pc := .done, ctx := s.ctx }, ⟨[s.out], []⟩)
  | (.hang, s) => ({ w with pc := .stuck, ctx := s.ctx }, ⟨[s.out], []⟩)

/-- command.rs:95-109 and 131-141: one step of worker `i`. -/
def Worker.anyStep (cfg : Config) (cont : Bool) (i : Nat) (net : Net) (w : Worker F) (x : Worker F × Effect) : Prop :=
  if w.pc = .eval then ∃ y, anyRun net w.test ⟨w.ctx, [], []⟩ y ∧ x = w.evaluated cfg y else w.step cfg cont i net = some x

/-- command.rs:79-161: one step of the program. -/
def Run.anyStep (cfg : Config) (r : Run F) (s : RunStep) (r' : Run F) : Prop :=
  match s with
  | .work i net => ∃ w x, r.workers[i]? = some w ∧ w.anyStep cfg r.continuous i net x ∧
      r' = { r with workers := r.workers.set i x.1, channel := r.channel ++ x.2.sent, out := r.out ++ x.2.out.map fun t => (some i, t) }
  | s => r.step cfg s = some r'

/-- command.rs:79-161: a run, step by step as the scheduler chooses. -/
inductive Run.AnySteps (cfg : Config) : Run F → List RunStep → Run F → Prop
  | nil (r : Run F) : Run.AnySteps cfg r [] r
  | snoc {r q p : Run F} {l : List RunStep} {s : RunStep} : Run.AnySteps cfg r l q → q.anyStep cfg s p → Run.AnySteps cfg r (l ++ [s]) p

end Am
