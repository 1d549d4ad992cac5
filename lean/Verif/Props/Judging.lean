import Verif.Proofs.Judging
import Verif.Props.Running
/-!
# Asserts only judge: C119, C120
-/
set_option linter.unusedSimpArgs false
set_option linter.unusedSectionVars false
namespace Am
open Spec
variable {F : Type} [Rt F]

/-! ## C119: other asserts -/

/-- C119, as stated: whatever the asserts of the requests are, everything else is the same. -/
def AssertsOnlyJudge (F : Type) [Rt F] : Prop :=
  ∀ (net : Net) (es : List (Expr F)) (s s' : St F), SameButVerdicts (fun _ _ => True) (fun _ _ => True) s s' →
    (runBlock net es s).1 = (runBlock net es s').1 ∧ SameButVerdicts (fun _ _ => True) (fun _ _ => True) (runBlock net es s).2 (runBlock net es s').2

/-- **C119**, for blocks: with other asserts that bind no name, do not print and use no operator that can crash, a script ends the same, with the same
value, the same variables, the same messages sent and the same text printed; its records are of the same exchanges. -/
theorem c119_block_partial (net : Net) (es : List (Expr F)) (s s' : St F) (h : SameButVerdicts AnyJudges (fun _ _ => True) s s') :
    (runBlock net es s).1 = (runBlock net es s').1 ∧ SameButVerdicts AnyJudges (fun _ _ => True) (runBlock net es s).2 (runBlock net es s').2 :=
  alongside_runBlock judged_any net es s s' h

/-- **C119**, for texts that differ only in such asserts, given to `am eval` or the prompt. -/
theorem c119_text_partial (net : Net) (text text' : Str) (is is' : List (Item F)) (h1 : Accepted text is) (h2 : Accepted text' is')
    (h : Each (OtherItem AnyJudges) is is') (s s' : St F) (hs : SameButVerdicts AnyJudges (fun _ _ => True) s s') :
    (evalText net text s).1 = (evalText net text' s').1 ∧
    SameButVerdicts AnyJudges (fun _ _ => True) (evalText net text s).2 (evalText net text' s').2 :=
  judged_text judged_any net text text' is is' h1 h2 h s s' hs

/-- **C119**, for `am test` on such texts: it comes to the same threads with the same tests. -/
theorem c119_start_partial (order : List (Str × List (Expr F)) → List (Str × List (Expr F))) (net : Net) (args : TestArgs) (text text' : Str)
    (is is' : List (Item F)) (h1 : Accepted text is) (h2 : Accepted text' is') (h : Each (OtherItem AnyJudges) is is') :
    StartedJudged AnyJudges (fun _ _ => True) (startTest order net args text).1 (startTest order net args text').1 ∧
    SameButVerdicts AnyJudges (fun _ _ => True) (startTest order net args text).2 (startTest order net args text').2 :=
  judged_start judged_any order net args h1 h2 h

/-- **C119**, for the runs of these threads under every schedule: they take the same steps, with the same statistics, and print and record the same apart
from the results of the asserts. -/
theorem c119_run_partial (cfg : Config) (ws ws' : List (Worker F)) (h : Each (WorkerJudged AnyJudges fun _ _ => True) ws ws') (sched : List RunStep) :
    ((Run.init ws).run cfg sched = none ∧ (Run.init ws').run cfg sched = none) ∨
    ∃ r r', (Run.init ws).run cfg sched = some r ∧ (Run.init ws').run cfg sched = some r' ∧ RunJudged AnyJudges (fun _ _ => True) r r' :=
  judged_run judged_any cfg (judged_begin h) sched

/-- A request `f` with the given asserts. -/
def requestF (as : List (Expr F)) : Context F := ⟨[], [(c!"f", (c!"GET http://a/", as))], []⟩

theorem requestF_same (as as' : List (Expr F)) :
    SameButVerdicts (fun _ _ => True) (fun _ _ => True) (⟨requestF as, [], []⟩ : St F) ⟨requestF as', [], []⟩ :=
  ⟨rfl, .cons ⟨rfl, rfl, trivial⟩ .nil, .nil, rfl, rfl⟩

/-- **C119** is false for all asserts: a name that an assert binds becomes a field of the value of the call. After `[(let x = 1) == 1]`, `f().x` is 1, and
without this assert it is null. -/
theorem c119_false : ¬AssertsOnlyJudge F := by
  intro h
  have := (h (refusing ⟨0, 0, 0, 0, 0, 0, 0, 0, 0, 0⟩) [.field (.call c!"f" []) c!"x"] _ _
    (requestF_same [.binary ⟨.Eq, c!"=="⟩ (.paren (.letE c!"x" (.int 1))) (.int 1)] [])).1
  change (Res.ok (Value.int 1) : Res (Value F)) = .ok .null at this
  injection this with this
  cases this

/-- The same as texts; the other two exceptions are an assert that prints and one that crashes. -/
theorem c119_false_text (k : Clocks) :
    (evalText (F := F) (refusing k) c!"request f `GET http://a/` [(let x = 1) == 1] f().x" ⟨Context.new, [], []⟩).2.out = c!"1\n" ∧
    (evalText (F := F) (refusing k) c!"request f `GET http://a/` f().x" ⟨Context.new, [], []⟩).2.out = c!"null\n" ∧
    (evalText (F := F) (refusing k) c!"request f `GET http://a/` [println(\"judged\") == 1] f().x" ⟨Context.new, [], []⟩).2.out = c!"judged\nnull\n" ∧
    (evalText (F := F) (refusing k) c!"request f `GET http://a/` [1 / 0 == 1] f().x" ⟨Context.new, [], []⟩).1 = .panic := ⟨rfl, rfl, rfl, rfl⟩

/-- Concrete case: an assert more and another one stricter. -/
example : Each (OtherItem (F := F) AnyJudges)
    [.request c!"f" c!"GET http://a/" [.binary ⟨.Lt, c!"<"⟩ (.ident c!"status") (.int 400)], .expr (.call c!"f" [])]
    [.request c!"f" c!"GET http://a/" [.binary ⟨.Eq, c!"=="⟩ (.ident c!"status") (.int 200), .binary ⟨.Gt, c!">"⟩ (.call c!"length" [.ident c!"body"]) (.int 0)], .expr (.call c!"f" [])] := by
  refine .cons (.request _ _ ⟨?_, ?_⟩) (.cons (.expr _) .nil)
  · intro a ha
    cases ha with
    | head => exact ⟨⟨rfl, by simp [called]⟩, by simp [ops, SafeOp]⟩
    | tail _ ha => cases ha
  · intro a ha
    cases ha with
    | head => exact ⟨⟨rfl, by simp [called]⟩, by simp [ops, SafeOp]⟩
    | tail _ ha =>
      cases ha with
      | head => exact ⟨⟨rfl, by simp [called, calledList]⟩, by simp [ops, opsList, SafeOp]⟩
      | tail _ ha => cases ha

/-! ## C120: the order of asserts -/

/-- C120, as stated: with the asserts in another order, the results are the same in that order, and everything else is the same. -/
def AssertOrderFree (F : Type) [Rt F] : Prop :=
  ∀ (net : Net) (es : List (Expr F)) (s s' : St F), SameButVerdicts List.Perm List.Perm s s' →
    (runBlock net es s).1 = (runBlock net es s').1 ∧ SameButVerdicts List.Perm List.Perm (runBlock net es s).2 (runBlock net es s').2

/-- **C120**, for blocks: asserts that bind no name and do not print, in another order, give the same results in that order; everything else is the same. An
assert that crashes does so in every order. -/
theorem c120_block_partial (net : Net) (es : List (Expr F)) (s s' : St F) (h : SameButVerdicts AnyOrder List.Perm s s') :
    (runBlock net es s).1 = (runBlock net es s').1 ∧ SameButVerdicts AnyOrder List.Perm (runBlock net es s).2 (runBlock net es s').2 :=
  alongside_runBlock judged_order net es s s' h

/-- **C120**, for texts. -/
theorem c120_text_partial (net : Net) (text text' : Str) (is is' : List (Item F)) (h1 : Accepted text is) (h2 : Accepted text' is')
    (h : Each (OtherItem AnyOrder) is is') (s s' : St F) (hs : SameButVerdicts AnyOrder List.Perm s s') :
    (evalText net text s).1 = (evalText net text' s').1 ∧ SameButVerdicts AnyOrder List.Perm (evalText net text s).2 (evalText net text' s').2 :=
  judged_text judged_order net text text' is is' h1 h2 h s s' hs

/-- **C120**, for `am test`. -/
theorem c120_start_partial (order : List (Str × List (Expr F)) → List (Str × List (Expr F))) (net : Net) (args : TestArgs) (text text' : Str)
    (is is' : List (Item F)) (h1 : Accepted text is) (h2 : Accepted text' is') (h : Each (OtherItem AnyOrder) is is') :
    StartedJudged AnyOrder List.Perm (startTest order net args text).1 (startTest order net args text').1 ∧
    SameButVerdicts AnyOrder List.Perm (startTest order net args text).2 (startTest order net args text').2 :=
  judged_start judged_order order net args h1 h2 h

/-- **C120**, for the runs of these threads under every schedule. -/
theorem c120_run_partial (cfg : Config) (ws ws' : List (Worker F)) (h : Each (WorkerJudged AnyOrder List.Perm) ws ws') (sched : List RunStep) :
    ((Run.init ws).run cfg sched = none ∧ (Run.init ws').run cfg sched = none) ∨
    ∃ r r', (Run.init ws).run cfg sched = some r ∧ (Run.init ws').run cfg sched = some r' ∧ RunJudged AnyOrder List.Perm r r' :=
  judged_run judged_order cfg (judged_begin h) sched

/-- **C120**, the verdict: such records both pass or both fail, and the lines of the asserts are the same in another order. -/
theorem c120_verdict (r r' : Record) (h : OtherVerdict List.Perm r r') :
    r.flag = r'.flag ∧ (r.asserts.map Assert.reportLine).Perm (r'.asserts.map Assert.reportLine) := by
  have h6 := h.2.2.2.2.2
  refine ⟨?_, h6.map _⟩
  have e : ∀ (l : List Assert) (b : Bool), l.foldl (fun f a => f && a.result) b = (b && l.all fun a => a.result) := by
    intro l
    induction l with
    | nil => intro b; simp
    | cons a l ih => intro b; rw [List.foldl_cons, ih, List.all_cons, Bool.and_assoc]
  unfold Record.flag
  rw [e, e, Bool.true_and, Bool.true_and, Bool.eq_iff_iff]
  simp only [List.all_eq_true]
  exact ⟨fun a x hx => a x (h6.mem_iff.2 hx), fun a x hx => a x (h6.mem_iff.1 hx)⟩

/-- The asserts `(let x = 1) == 1` and `x == 1`. -/
def bindsFirst : List (Expr F) :=
  [.binary ⟨.Eq, c!"=="⟩ (.paren (.letE c!"x" (.int 1))) (.int 1), .binary ⟨.Eq, c!"=="⟩ (.ident c!"x") (.int 1)]

/-- **C120** is false for all asserts: `[(let x = 1) == 1, x == 1]` holds, `[x == 1, (let x = 1) == 1]` does not. -/
theorem c120_false : ¬AssertOrderFree F := by
  intro h
  have := (h (refusing ⟨0, 0, 0, 0, 0, 0, 0, 0, 0, 0⟩) [.call c!"f" []] ⟨requestF bindsFirst, [], []⟩ ⟨requestF bindsFirst.reverse, [], []⟩
    ⟨rfl, .cons ⟨rfl, rfl, (List.reverse_perm _).symm⟩ .nil, .nil, rfl, rfl⟩).2.records
  cases this with
  | cons h1 _ =>
    have := h1.2.2.2.2.2
    have hm := (this.map Assert.result).mem_iff (a := false)
    have e1 : false ∉ [true, true] := by decide
    exact e1 (hm.2 (by exact List.mem_cons_self))

/-- Concrete case: two asserts change places. -/
example : OtherItem (F := F) AnyOrder
    (.request c!"f" c!"GET http://a/" [.binary ⟨.Eq, c!"=="⟩ (.ident c!"status") (.int 200), .binary ⟨.Eq, c!"=="⟩ (.field (.ident c!"json") c!"ok") (.bool true)])
    (.request c!"f" c!"GET http://a/" [.binary ⟨.Eq, c!"=="⟩ (.field (.ident c!"json") c!"ok") (.bool true), .binary ⟨.Eq, c!"=="⟩ (.ident c!"status") (.int 200)]) := by
  refine .request _ _ ⟨.swap .., ?_⟩
  intro a ha
  cases ha with
  | head => exact ⟨rfl, by simp [called]⟩
  | tail _ ha =>
    cases ha with
    | head => exact ⟨rfl, by simp [called]⟩
    | tail _ ha => cases ha

end Am
