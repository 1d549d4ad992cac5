import Verif.Spec.WriteOut
/-!
# One test in the place of another

When one test may stand in the place of another, and what is then the same in the runs of both. `R` is what must hold between the contexts of the two when an
iteration begins.
-/
namespace Am.Spec
variable {F : Type} [Rt F]

/-- Both end in the same way: with values, with the same error, with a crash, or never. -/
inductive EndAlike : Res (Value F) → Res (Value F) → Prop
  | ok (v w : Value F) : EndAlike (.ok v) (.ok w)
  | err (e : Str) : EndAlike (.err e) (.err e)
  | panic : EndAlike .panic .panic
  | hang : EndAlike .hang .hang

/-- Begun in contexts between which `R` holds, both tests end in the same way, print the same and record the same, whatever is answered; and if they end with
values, `R` holds again for the next iteration. -/
def StandsFor (R : Context F → Context F → Prop) (test test' : List (Expr F)) : Prop :=
  ∀ net c c', R c c' →
    EndAlike (runBlock net test ⟨c, [], []⟩).1 (runBlock net test' ⟨c', [], []⟩).1 ∧
    (runBlock net test ⟨c, [], []⟩).2.out = (runBlock net test' ⟨c', [], []⟩).2.out ∧
    (runBlock net test ⟨c, [], []⟩).2.ctx.records = (runBlock net test' ⟨c', [], []⟩).2.ctx.records ∧
    ∀ v, (runBlock net test ⟨c, [], []⟩).1 = .ok v →
      R { (runBlock net test ⟨c, [], []⟩).2.ctx with records := [] } { (runBlock net test' ⟨c', [], []⟩).2.ctx with records := [] }

/-- Two threads at the same place, the one with the one test and the other with the other, with the same record files. While an iteration may still come, `R`
holds between the contexts. -/
structure StandsWorker (named : Bool) (R : Context F → Context F → Prop) (w w' : Worker F) : Prop where
  pc : w.pc = w'.pc
  name : w.name = w'.name
  test : StandsFor R w.test w'.test
  number : w.number = w'.number
  file : w.file = w'.file
  ctx : w.pc = .head ∨ w.pc = .eval ∨ (∃ rs, w.pc = .send rs) ∨ (named = true ∧ w.pc ≠ .done ∧ w.pc ≠ .stuck) → R w.ctx w'.ctx

/-- Two runs with such threads that are otherwise the same. -/
structure StandsRun (named : Bool) (R : Context F → Context F → Prop) (r r' : Run F) : Prop where
  workers : Each (StandsWorker named R) r.workers r'.workers
  continuous : r.continuous = r'.continuous
  channel : r.channel = r'.channel
  mainSender : r.mainSender = r'.mainSender
  collector : r.collector = r'.collector
  stats : r.stats = r'.stats
  out : r.out = r'.out

/-- Contexts between two iterations that define the same requests and agree on the variables in `D`. -/
def AgreeOn (table : List (Str × (Str × List (Expr F)))) (D : Str → Prop) (c c' : Context F) : Prop :=
  c.requests = table ∧ c'.requests = table ∧ c.records = c'.records ∧ ∀ x, D x → c.get x = c'.get x

end Am.Spec
