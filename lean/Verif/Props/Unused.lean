import Verif.Spec.Unused
import Verif.Props.Rearrange
/-! # C108: definitions that are not used change nothing -/
set_option linter.unusedSimpArgs false
set_option linter.unusedSectionVars false
namespace Am
open Spec
variable {F : Type} [Rt F] {N : Str → Prop}

/-- C108: a block depends only on the requests it calls by name: if two states agree on those, it has the same outcome, sends and prints the same and
leaves the same variables and records. -/
theorem c108_block (net : Net) (es : List (Expr F)) (hc : CallsOnly N es) {s t : St F} (h : SameForState N s t) :
    (runBlock net es s).1 = (runBlock net es t).1 ∧ SameForState N (runBlock net es s).2 (runBlock net es t).2 := by
  obtain ⟨⟨h1, h2, h3⟩, h4, h5⟩ := h
  have hn : Near s.ctx.requests t.ctx.requests s.out s.out s t := ⟨rfl, rfl, h1, h2, h4, [], by simp, by simp [h5]⟩
  obtain ⟨g1, g2⟩ := block_near (R := s.ctx.requests) (R' := t.ctx.requests) (P := s.out) (Q := s.out) net es .null
    (fun f hf => h3 f (hc f hf)) s t hn
  obtain ⟨o, o1, o2⟩ := g2.out
  refine ⟨g1, ⟨g2.inner, g2.records, fun n hN => ?_⟩, g2.sent, o1.trans o2.symm⟩
  unfold Context.request
  rw [show (runBlock net es s).2.ctx.requests = _ from g2.left, show (runBlock net es t).2.ctx.requests = _ from g2.right]
  exact h3 n hN

theorem sameFor_extend {c c' : Context F} (h : SameFor N c c') {l l' : List (Str × (Str × List (Expr F)))} (hl : ∀ n, N n → amGet n l = amGet n l')
    (h1 : KeysNodup l) (h2 : KeysNodup l') : SameFor N (c.extend l) (c'.extend l') := by
  refine ⟨h.1, h.2.1, fun n hn => ?_⟩
  have := h.2.2 n hn
  unfold Context.request Context.extend at *
  dsimp only at *
  rw [amGet_extend n _ _ h1, amGet_extend n _ _ h2, hl n hn, this]

/-- The same outcome in states that agree on `N`. -/
def ResFor (N : Str → Prop) {α : Type} (x y : Res α × St F) : Prop := x.1 = y.1 ∧ SameForState N x.2 y.2

/-- `am eval` on two sources with the same expressions that agree on the requests they call. -/
theorem sameFor_evalText {net : Net} {text text' : Str} {src src' : Source F} (h1 : parse text = .ok src) (h2 : parse text' = .ok src')
    (he : src.exprs = src'.exprs) (hc : CallsOnly N src.exprs) (hr : ∀ n, N n → amGet n src.requests = amGet n src'.requests)
    (hn : KeysNodup src.requests) (hn' : KeysNodup src'.requests) {s s' : St F} (hs : SameForState N s s') :
    (evalText net text s).1 = (evalText net text' s').1 ∧ SameForState N (evalText net text s).2 (evalText net text' s').2 := by
  unfold evalText
  rw [h1, h2]
  dsimp only
  have hx : SameForState N { s with ctx := s.ctx.extend src.requests } { s' with ctx := s'.ctx.extend src'.requests } :=
    ⟨sameFor_extend hs.1 hr hn hn', hs.2.1, hs.2.2⟩
  have hb := c108_block net src.exprs hc hx
  rw [← he]
  show ResFor N (match runBlock net src.exprs { s with ctx := s.ctx.extend src.requests } with
      | (.ok v, s) => sayLine v.display s
      | (.err e, s) => sayLine e s
      | (.panic, s) => (.panic, s)
      | (.hang, s) => (.hang, s)) (match runBlock net src.exprs { s' with ctx := s'.ctx.extend src'.requests } with
      | (.ok v, s) => sayLine v.display s
      | (.err e, s) => sayLine e s
      | (.panic, s) => (.panic, s)
      | (.hang, s) => (.hang, s))
  rcases hy : runBlock net src.exprs { s with ctx := s.ctx.extend src.requests } with ⟨r, t⟩
  rcases hz : runBlock net src.exprs { s' with ctx := s'.ctx.extend src'.requests } with ⟨r', t'⟩
  rw [hy, hz] at hb
  obtain ⟨hb1, hb2, hb3, hb4⟩ := hb
  dsimp only at hb1 hb2 hb3 hb4
  subst hb1
  cases r with
  | ok v => exact ⟨rfl, hb2, hb3, congrArg (fun o => o ++ v.display ++ c!"\n") hb4⟩
  | err e => exact ⟨rfl, hb2, hb3, congrArg (fun o => o ++ e ++ c!"\n") hb4⟩
  | panic => exact ⟨rfl, hb2, hb3, hb4⟩
  | hang => exact ⟨rfl, hb2, hb3, hb4⟩

theorem source_for {is is' : List (Item F)} (he : exprsOf is = exprsOf is') (hr : ∀ n, N n → lastRequest n is = lastRequest n is') :
    (is.foldl addItem ⟨[], [], []⟩).exprs = exprsOf is ∧ (is'.foldl addItem ⟨[], [], []⟩).exprs = exprsOf is ∧
    (∀ n, N n → amGet n (is.foldl addItem ⟨[], [], []⟩).requests = amGet n (is'.foldl addItem ⟨[], [], []⟩).requests) ∧
    (∀ n, amGet n (is.foldl addItem ⟨[], [], []⟩).tests = lastTest n is) ∧ (∀ n, amGet n (is'.foldl addItem ⟨[], [], []⟩).tests = lastTest n is') ∧
    KeysNodup (is.foldl addItem ⟨[], [], []⟩).requests ∧ KeysNodup (is'.foldl addItem ⟨[], [], []⟩).requests := by
  obtain ⟨a1, a2, a3, a4, _⟩ := fold_tables is ⟨[], [], []⟩
  obtain ⟨b1, b2, b3, b4, _⟩ := fold_tables is' ⟨[], [], []⟩
  refine ⟨by rw [a1]; simp, by rw [b1, he]; simp, fun n hn => by rw [a2, b2, hr n hn], fun n => by rw [a3]; simp [amGet], fun n => by rw [b3]; simp [amGet],
    a4 (by simp [KeysNodup]), b4 (by simp [KeysNodup])⟩

/-- C108: `am eval` on two texts with the same expressions: if these call only names of `N`, and the texts define the same requests under these names,
the outcome, the messages, the printed text, the variables and the records are the same. -/
theorem c108_text (net : Net) {text text' : Str} {is is' : List (Item F)} (h1 : Accepted text is) (h2 : Accepted text' is')
    (he : exprsOf is = exprsOf is') (hc : CallsOnly N (exprsOf is)) (hr : ∀ n, N n → lastRequest n is = lastRequest n is') {s s' : St F}
    (hs : SameForState N s s') :
    (evalText net text s).1 = (evalText net text' s').1 ∧ SameForState N (evalText net text s).2 (evalText net text' s').2 := by
  obtain ⟨a, b, c, _, _, d, e⟩ := source_for he hr
  exact sameFor_evalText (accepted_items h1) (accepted_items h2) (a.trans b.symm) (by rw [a]; exact hc) c d e hs

/-- C108: in particular the definition of a request that no expression calls may be left out. -/
theorem c108_request (net : Net) {text text' : Str} {before after : List (Item F)} (f m : Str) (as : List (Expr F))
    (h1 : Accepted text (before ++ .request f m as :: after)) (h2 : Accepted text' (before ++ after))
    (hf : f ∉ calledList (exprsOf (before ++ after))) (s : St F) :
    (evalText net text s).1 = (evalText net text' s).1 ∧ SameForState (· ≠ f) (evalText net text s).2 (evalText net text' s).2 := by
  have he : exprsOf (before ++ .request f m as :: after) = exprsOf (before ++ after) := by
    rw [exprsOf_append', exprsOf_append']; rfl
  refine c108_text net h1 h2 he ?_ ?_ ⟨⟨rfl, rfl, fun _ _ => rfl⟩, rfl, rfl⟩
  · rw [he]; rintro g hg rfl; exact hf hg
  · intro n hn
    rw [lastRequest_append, lastRequest_append]
    congr 1
    simp only [lastRequest]
    rw [if_neg (fun h => hn h.symm)]
    simp

/-- C108: and so may the definition of a test, for `am eval`. -/
theorem c108_test (net : Net) {text text' : Str} {before after : List (Item F)} (n : Str) (b : List (Expr F))
    (h1 : Accepted text (before ++ .test n b :: after)) (h2 : Accepted text' (before ++ after)) (s : St F) :
    (evalText net text s).1 = (evalText net text' s).1 ∧ SameForState (fun _ => True) (evalText net text s).2 (evalText net text' s).2 := by
  have he : exprsOf (before ++ .test n b :: after) = exprsOf (before ++ after) := by
    rw [exprsOf_append', exprsOf_append']; rfl
  refine c108_text net h1 h2 he (fun _ _ => trivial) ?_ ⟨⟨rfl, rfl, fun _ _ => rfl⟩, rfl, rfl⟩
  intro k _
  rw [lastRequest_append, lastRequest_append]
  rfl

/-- C108: nothing in the rest of a session tells the difference, as long as its lines call only names of `N`. -/
theorem c108_session (net : Net) (input : List Input)
    (hi : ∀ text src, Input.line text ∈ input → (parse text : Res (Source F)) = .ok src → CallsOnly N src.exprs) {s s' : St F} (hs : SameForState N s s') :
    (replLoop net input s).1 = (replLoop net input s').1 ∧ SameForState N (replLoop net input s).2 (replLoop net input s').2 := by
  induction input generalizing s s' with
  | nil => exact ⟨rfl, hs⟩
  | cons i rest ih =>
    have ih := fun {s s'} => @ih (fun text src h => hi text src (by simp [h])) s s'
    cases i with
    | bad => exact ih hs
    | line text =>
      unfold replLoop
      by_cases h1 : text = c!"exit"
      · rw [if_pos h1]; exact ⟨rfl, hs⟩
      · rw [if_neg h1]
        by_cases h2 : (trim text).isEmpty = true
        · rw [if_pos h2]; exact ih hs
        · rw [if_neg h2]
          have ht : (evalText net text s).1 = (evalText net text s').1 ∧ SameForState N (evalText net text s).2 (evalText net text s').2 := by
            cases hp : (parse text : Res (Source F)) with
            | ok src =>
              obtain ⟨items, _, _, _, _, hk, _⟩ := c12_tables text src hp
              exact sameFor_evalText hp hp rfl (hi text src (by simp) hp) (fun _ _ => rfl) hk hk hs
            | err e =>
              unfold evalText
              rw [hp]
              exact ⟨rfl, hs.1, hs.2.1, congrArg (fun o => o ++ e ++ c!"\n") hs.2.2⟩
            | panic => unfold evalText; rw [hp]; exact ⟨rfl, hs⟩
            | hang => unfold evalText; rw [hp]; exact ⟨rfl, hs⟩
          cases hx : evalText net text s with | mk r u =>
          cases hy : evalText net text s' with | mk r' u' =>
          rw [hx, hy] at ht
          obtain ⟨e1, e2⟩ := ht
          dsimp only at e1 e2
          subst e1
          cases r with
          | ok a => rw [M.bind_ok hx, M.bind_ok hy]; exact ih e2
          | err e => rw [M.bind_err hx, M.bind_err hy]; exact ⟨rfl, e2⟩
          | panic => rw [M.bind_panic hx, M.bind_panic hy]; exact ⟨rfl, e2⟩
          | hang => rw [M.bind_hang hx, M.bind_hang hy]; exact ⟨rfl, e2⟩

/-! ## Runs of tests -/

theorem workerFor_init (record : Bool) {c c' : Context F} (h : SameFor N c c') (name : Str) (test : List (Expr F)) (ht : CallsOnly N test) :
    WorkerFor N (Worker.init record c name test) (Worker.init record c' name test) :=
  ⟨rfl, rfl, rfl, ht, ⟨h.1, rfl, h.2.2⟩, rfl, rfl⟩

/-- C108: `am test name` on two source texts with the same expressions: if these and the test call only names of `N`, under which the texts define the
same requests, and the test is the same, it comes to the same. Other tests, and requests under other names, do not matter. -/
theorem c108_start (order order' : List (Str × List (Expr F)) → List (Str × List (Expr F))) (net : Net) (args : TestArgs) {text text' : Str}
    {is is' : List (Item F)} (h1 : Accepted text is) (h2 : Accepted text' is') (he : exprsOf is = exprsOf is') (hc : CallsOnly N (exprsOf is))
    (hr : ∀ n, N n → lastRequest n is = lastRequest n is') (name : Str) (hname : args.name = some name) (ht : lastTest name is = lastTest name is')
    (hb : ∀ b, lastTest name is = some b → CallsOnly N b) :
    StartedFor N (startTest order net args text).1 (startTest order' net args text').1 ∧
    SameForState N (startTest order net args text).2 (startTest order' net args text').2 := by
  obtain ⟨a, b, c, t1, t2, d, e⟩ := source_for he hr
  have hx := c108_block (F := F) net (is.foldl addItem ⟨[], [], []⟩).exprs (by rw [a]; exact hc)
    (s := { (⟨Context.new, [], []⟩ : St F) with ctx := Context.new.extend (is.foldl addItem ⟨[], [], []⟩).requests })
    (t := { (⟨Context.new, [], []⟩ : St F) with ctx := Context.new.extend (is'.foldl addItem ⟨[], [], []⟩).requests })
    ⟨sameFor_extend (c := Context.new) ⟨rfl, rfl, fun _ _ => rfl⟩ c d e, rfl, rfl⟩
  unfold startTest setup
  rw [accepted_items h1, accepted_items h2]
  dsimp only at hx ⊢
  rw [b]
  rw [a] at hx ⊢
  rcases hy : runBlock net (exprsOf is) { ctx := Context.new.extend (is.foldl addItem ⟨[], [], []⟩).requests, sent := [], out := [] } with ⟨r, t⟩
  rcases hz : runBlock net (exprsOf is) { ctx := Context.new.extend (is'.foldl addItem ⟨[], [], []⟩).requests, sent := [], out := [] } with ⟨r', t'⟩
  rw [hy, hz] at hx
  obtain ⟨hb1, hb2, hb3, hb4⟩ := hx
  dsimp only at hb1 hb2 hb3 hb4
  subst hb1
  cases r with
  | err m => exact ⟨.ended, hb2, hb3, congrArg (fun o => o ++ m ++ c!"\n") hb4⟩
  | panic => exact ⟨.panicked, hb2, hb3, hb4⟩
  | hang => exact ⟨.endless, hb2, hb3, hb4⟩
  | ok v =>
    dsimp only
    unfold startWorkers
    rw [hname]
    dsimp only
    rw [t1, t2, ← ht]
    cases hl : lastTest name is with
    | none => exact ⟨.threads _ _ _ .nil, hb2, hb3, congrArg (fun o => o ++ (c!"Test not found: " ++ name) ++ c!"\n") hb4⟩
    | some test =>
      dsimp only
      cases perThread (limits args.duration args.number).2 args.threads with
      | ok n => exact ⟨.threads _ _ _ (each_replicate (workerFor_init args.record hb2 name test (hb test hl)) _), hb2, hb3, hb4⟩
      | err m => exact ⟨.ended, hb2, hb3, hb4⟩
      | panic => exact ⟨.panicked, hb2, hb3, hb4⟩
      | hang => exact ⟨.endless, hb2, hb3, hb4⟩

theorem workerStep_for (cfg : Config) (cont : Bool) (i : Nat) (net : Net) {w w' : Worker F} (h : WorkerFor N w w') :
    (w.step cfg cont i net = none ∧ w'.step cfg cont i net = none) ∨
    ∃ v v' e, w.step cfg cont i net = some (v, e) ∧ w'.step cfg cont i net = some (v', e) ∧ WorkerFor N v v' := by
  obtain ⟨p, n, t, c, k, f⟩ := w
  obtain ⟨p', n', t', c', k', f'⟩ := w'
  obtain ⟨rfl, rfl, rfl, hcalls, hc, rfl, rfl⟩ := h
  dsimp only at hc hcalls
  unfold Worker.step
  dsimp only
  cases p with
  | head =>
    dsimp only
    split
    · split <;> exact .inr ⟨_, _, _, rfl, rfl, ⟨rfl, rfl, rfl, hcalls, hc, rfl, rfl⟩⟩
    · exact .inr ⟨_, _, _, rfl, rfl, ⟨rfl, rfl, rfl, hcalls, hc, rfl, rfl⟩⟩
  | eval =>
    dsimp only
    have hx := c108_block net t hcalls (s := ⟨c, [], []⟩) (t := ⟨c', [], []⟩) ⟨hc, rfl, rfl⟩
    rcases hy : runBlock net t ⟨c, [], []⟩ with ⟨r, s⟩
    rcases hz : runBlock net t ⟨c', [], []⟩ with ⟨r', s'⟩
    rw [hy, hz] at hx
    obtain ⟨hb1, hb2, hb3, hb4⟩ := hx
    dsimp only at hb1 hb2 hb3 hb4
    subst hb1
    have hrec := hb2.2.1
    cases r with
    | ok v =>
      dsimp only [Context.takeRecords]
      rw [hrec, hb4]
      exact .inr ⟨_, _, _, rfl, rfl, ⟨rfl, rfl, rfl, hcalls, ⟨hb2.1, rfl, hb2.2.2⟩, rfl, rfl⟩⟩
    | err e =>
      dsimp only [Context.takeRecords]
      rw [hrec, hb4]
      split
      · exact .inr ⟨_, _, _, rfl, rfl, ⟨rfl, rfl, rfl, hcalls, hb2, rfl, rfl⟩⟩
      · exact .inr ⟨_, _, _, rfl, rfl, ⟨rfl, rfl, rfl, hcalls, ⟨hb2.1, rfl, hb2.2.2⟩, rfl, rfl⟩⟩
    | panic =>
      dsimp only
      rw [hb4]
      exact .inr ⟨_, _, _, rfl, rfl, ⟨rfl, rfl, rfl, hcalls, hb2, rfl, rfl⟩⟩
    | hang =>
      dsimp only
      rw [hb4]
      exact .inr ⟨_, _, _, rfl, rfl, ⟨rfl, rfl, rfl, hcalls, hb2, rfl, rfl⟩⟩
  | print rs left => cases left <;> exact .inr ⟨_, _, _, rfl, rfl, ⟨rfl, rfl, rfl, hcalls, hc, rfl, rfl⟩⟩
  | write rs =>
    dsimp only
    split <;> exact .inr ⟨_, _, _, rfl, rfl, ⟨rfl, rfl, rfl, hcalls, hc, rfl, rfl⟩⟩
  | send rs => exact .inr ⟨_, _, _, rfl, rfl, ⟨rfl, rfl, rfl, hcalls, hc, rfl, rfl⟩⟩
  | done => exact .inl ⟨rfl, rfl⟩
  | stuck => exact .inl ⟨rfl, rfl⟩

theorem runFor_done {ws ws' : List (Worker F)} (h : Each (WorkerFor N) ws ws') : (ws.all fun w => w.pc == .done) = ws'.all fun w => w.pc == .done := by
  induction h with
  | nil => rfl
  | cons h1 _ ih => simp only [List.all_cons, h1.pc, ih]

theorem runStep_for (cfg : Config) {r r' : Run F} (h : RunFor N r r') (s : RunStep) :
    (r.step cfg s = none ∧ r'.step cfg s = none) ∨ ∃ q q', r.step cfg s = some q ∧ r'.step cfg s = some q' ∧ RunFor N q q' := by
  obtain ⟨ws, ct, ch, ms, co, st, ou⟩ := r
  obtain ⟨ws', ct', ch', ms', co', st', ou'⟩ := r'
  obtain ⟨hw, rfl, rfl, rfl, rfl, rfl, rfl⟩ := h
  dsimp only at hw
  cases s with
  | work i net =>
    unfold Run.step
    dsimp only
    rcases hw.get i with ⟨h1, h2⟩ | ⟨w, w', h1, h2, h3⟩
    · rw [h1, h2]; exact .inl ⟨rfl, rfl⟩
    · rw [h1, h2]
      dsimp only
      rcases workerStep_for cfg ct i net h3 with ⟨h4, h5⟩ | ⟨v, v', e, h4, h5, h6⟩
      · rw [h4, h5]; exact .inl ⟨rfl, rfl⟩
      · rw [h4, h5]
        exact .inr ⟨_, _, rfl, rfl, ⟨hw.set i h6, rfl, rfl, rfl, rfl, rfl, rfl⟩⟩
  | stop => exact .inr ⟨_, _, rfl, rfl, ⟨hw, rfl, rfl, rfl, rfl, rfl, rfl⟩⟩
  | drop =>
    unfold Run.step
    dsimp only
    split
    · exact .inr ⟨_, _, rfl, rfl, ⟨hw, rfl, rfl, rfl, rfl, rfl, rfl⟩⟩
    · exact .inl ⟨rfl, rfl⟩
  | collect =>
    unfold Run.step
    dsimp only
    split
    · exact .inl ⟨rfl, rfl⟩
    · split
      · split
        · exact .inr ⟨_, _, rfl, rfl, ⟨hw, rfl, rfl, rfl, rfl, rfl, rfl⟩⟩
        · unfold Run.disconnected Run.workersDone
          dsimp only
          rw [runFor_done hw]
          split
          · exact .inr ⟨_, _, rfl, rfl, ⟨hw, rfl, rfl, rfl, rfl, rfl, rfl⟩⟩
          · exact .inl ⟨rfl, rfl⟩
      · exact .inr ⟨_, _, rfl, rfl, ⟨hw, rfl, rfl, rfl, rfl, rfl, rfl⟩⟩

/-- C108: the runs of the tests are the same, step by step: the same output, the same record files, the same statistics. -/
theorem c108_run (cfg : Config) {r r' : Run F} (h : RunFor N r r') (sched : List RunStep) :
    (r.run cfg sched = none ∧ r'.run cfg sched = none) ∨ ∃ q q', r.run cfg sched = some q ∧ r'.run cfg sched = some q' ∧ RunFor N q q' := by
  induction sched generalizing r r' with
  | nil => exact .inr ⟨r, r', rfl, rfl, h⟩
  | cons s l ih =>
    unfold Run.run
    rcases runStep_for cfg h s with ⟨h2, h3⟩ | ⟨q, q', h2, h3, h4⟩
    · rw [h2, h3]; exact .inl ⟨rfl, rfl⟩
    · rw [h2, h3]; exact ih h4

/-- C108: threads that are alike make runs that are alike. -/
theorem c108_begin {ws ws' : List (Worker F)} (h : Each (WorkerFor N) ws ws') : RunFor N (Run.init ws) (Run.init ws') :=
  ⟨h, rfl, rfl, rfl, rfl, rfl, rfl⟩

/-- Concrete case: the request `g` is not called. -/
example : c!"g" ∉ calledList (F := F) (exprsOf ([.request c!"f" c!"GET http://localhost/" []] ++ [.expr (.call c!"f" [])])) := by
  simp [exprsOf, calledList, called]

/-- C108: a request with the name of a function that is called does count. -/
theorem c108_shadow (k : Clocks) :
    (evalText (F := F) (refusing k) c!"length([1])" ⟨Context.new, [], []⟩).2.sent = [] ∧
    (evalText (F := F) (refusing k) c!"request length `GET http://a/` length([1])" ⟨Context.new, [], []⟩).2.sent = [c!"GET http://a/"] :=
  ⟨rfl, rfl⟩

end Am
