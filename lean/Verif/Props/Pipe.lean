import Verif.Proofs.Pipe
import Verif.Proofs.Run
import Verif.Props.Builds
import Verif.Props.Running
/-! # C89: a closed standard output -/
set_option linter.unusedSimpArgs false
set_option linter.unusedSectionVars false
namespace Am
open Spec
variable {F : Type} [Rt F]

theorem cut_sure {broken : Str → Bool} (hb : StaysBroken broken) {α : Type} {m m' : M F α} (h : ∀ {sure : Prop}, (sure → StaysBroken broken) → Cut broken sure 0 m m')
    (s : St F) (hs : broken s.out = false) : (broken (m s).2.out = false → m' s = m s) ∧
      (broken (m s).2.out = true → (m' s).1 = .panic ∧ RunsOn (m' s).2 (m s).2) := by
  rcases (h (sure := True) (fun _ => hb)).2 s (fun _ => hs) with ⟨h1, h2⟩ | ⟨h1, h2, h3⟩
  · refine ⟨fun _ => h1, fun h => ?_⟩
    rw [h2 trivial] at h
    simp at h
  · refine ⟨fun h => ?_, fun _ => ⟨h1, behind_runsOn h2⟩⟩
    rw [h3 trivial] at h
    simp at h

/-- C89: a block of expressions whose output is closed at some time does what it does with a working output if everything it then prints can
still be printed; otherwise it crashes, and what it has sent and printed until then is sent and printed with a working output as well. -/
theorem c89_block_partial {broken : Str → Bool} (hb : StaysBroken broken) (net : Net) (es : List (Expr F)) (s : St F) (hs : broken s.out = false) :
    (broken (runBlock net es s).2.out = false → runBlockOn broken net es s = runBlock net es s) ∧
    (broken (runBlock net es s).2.out = true → (runBlockOn broken net es s).1 = .panic ∧ RunsOn (runBlockOn broken net es s).2 (runBlock net es s).2) :=
  cut_sure hb (fun h => cut_runBlock h net es) s hs

/-- C89: `am eval` and a line of a session. -/
theorem c89_text_partial {broken : Str → Bool} (hb : StaysBroken broken) (net : Net) (text : Str) (s : St F) (hs : broken s.out = false) :
    (broken (evalText net text s).2.out = false → evalTextOn broken net text s = evalText net text s) ∧
    (broken (evalText net text s).2.out = true → (evalTextOn broken net text s).1 = .panic ∧ RunsOn (evalTextOn broken net text s).2 (evalText net text s).2) :=
  cut_sure hb (fun h => cut_evalText h net text) s hs

/-- C89: a whole session. -/
theorem c89_session_partial {broken : Str → Bool} (hb : StaysBroken broken) (net : Net) (input : List Input) (s : St F) (hs : broken s.out = false) :
    (broken (replLoop net input s).2.out = false → replLoopOn broken net input s = replLoop net input s) ∧
    (broken (replLoop net input s).2.out = true → (replLoopOn broken net input s).1 = .panic ∧ RunsOn (replLoopOn broken net input s).2 (replLoop net input s).2) :=
  cut_sure hb (fun h => cut_repl h net input) s hs

theorem closedAfter_stays (limit : Nat) : StaysBroken (closedAfter limit) := by
  intro t more h
  simp only [closedAfter, decide_eq_true_eq, List.length_append] at h ⊢
  omega

/-- C89: with a reader that goes away after `limit` characters, `am eval` crashes for that reason exactly if it prints more than that. -/
theorem c89_limit_partial (limit : Nat) (net : Net) (text : Str) (s : St F) (hs : s.out.length ≤ limit) :
    ((evalText net text s).2.out.length ≤ limit → evalTextOn (closedAfter limit) net text s = evalText net text s) ∧
    (limit < (evalText net text s).2.out.length → (evalTextOn (closedAfter limit) net text s).1 = .panic) := by
  obtain ⟨h1, h2⟩ := c89_text_partial (closedAfter_stays limit) net text s (by simpa [closedAfter] using hs)
  exact ⟨fun h => h1 (by simpa [closedAfter] using h), fun h => (h2 (by simpa [closedAfter] using h)).1⟩

theorem runBlockOn_ok {broken : Str → Bool} {net : Net} {es : List (Expr F)} {s t : St F} {v : Value F} (h : runBlockOn broken net es s = (.ok v, t)) :
    runBlock net es s = (.ok v, t) := by
  rcases (cut_runBlock (F := F) (broken := broken) (sure := False) (fun h => h.elim) net es).2 s (fun h => h.elim) with ⟨h1, _⟩ | ⟨h1, _, _⟩
  · rw [← h1, h]
  · rw [h] at h1; simp at h1

theorem runBlockOn_working (net : Net) (es : List (Expr F)) (s : St F) : runBlockOn working net es s = runBlock net es s := by
  rcases (cut_runBlock (F := F) (broken := working) (sure := True) (fun _ _ _ h => by simp [working] at h) net es).2 s (fun _ => rfl) with ⟨h1, _⟩ | ⟨_, _, h1⟩
  · exact h1
  · have := h1 trivial
    simp [working] at this

theorem stepOn_working (cfg : Config) (cont : Bool) (i : Nat) (net : Net) (w : Worker F) : w.stepOn working cfg cont i net = w.step cfg cont i net := by
  obtain ⟨p, a, b, c, d, e⟩ := w
  cases p with
  | eval =>
    unfold Worker.stepOn Worker.step
    dsimp only
    rw [runBlockOn_working]
    rcases runBlock net b ⟨c, [], []⟩ with ⟨r, s⟩
    cases r <;> rfl
  | print rs left => cases left <;> rfl
  | _ => rfl

theorem runStepOn_working (cfg : Config) (r : Run F) (s : RunStep) : r.stepOn working cfg s = r.step cfg s := by
  cases s with
  | work i net =>
    unfold Run.stepOn Run.step
    dsimp only
    cases r.workers[i]? with
    | none => rfl
    | some w =>
      dsimp only
      rw [stepOn_working]
      cases w.step cfg r.continuous i net <;> rfl
  | stop => rfl
  | drop => rfl
  | collect =>
    unfold Run.stepOn
    dsimp only
    split
    · simp [working]
    · rfl

/-- C89: as long as the output works, a run of tests is the run described by the other properties. -/
theorem c89_working (cfg : Config) (r : Run F) (l : List RunStep) : r.runOn cfg (l.map fun s => (s, working)) = r.run cfg l := by
  induction l generalizing r with
  | nil => rfl
  | cons s l ih =>
    simp only [List.map_cons, Run.runOn, Run.run, runStepOn_working]
    cases r.step cfg s with
    | none => rfl
    | some q => exact ih q

theorem workerOn {broken : Str → Bool} (hb : StaysBroken broken) (h0 : broken [] = false) (cfg : Config) (cont : Bool) (i : Nat) (net : Net) (w w' : Worker F) (e : Effect)
    (h : w.step cfg cont i net = some (w', e)) :
    (broken e.out.flatten = false → w.stepOn broken cfg cont i net = some (w', e)) ∧
    (broken e.out.flatten = true → ∃ w2 e2, w.stepOn broken cfg cont i net = some (w2, e2) ∧ e2.sent = [] ∧ e2.out.flatten <+: e.out.flatten ∧ w2.pc = .done ∧
      w2.file = w.file) := by
  have quiet : e.out = [] → w.stepOn broken cfg cont i net = w.step cfg cont i net →
      (broken e.out.flatten = false → w.stepOn broken cfg cont i net = some (w', e)) ∧
      (broken e.out.flatten = true → ∃ w2 e2, w.stepOn broken cfg cont i net = some (w2, e2) ∧ e2.sent = [] ∧ e2.out.flatten <+: e.out.flatten ∧ w2.pc = .done ∧
        w2.file = w.file) := by
    intro he heq
    rw [he, heq, h]
    refine ⟨fun _ => rfl, fun hx => ?_⟩
    rw [List.flatten_nil, h0] at hx
    cases hx
  cases hpc : w.pc with
  | head =>
    apply quiet
    · unfold Worker.step at h
      rw [hpc] at h
      dsimp only at h
      repeat' split at h
      all_goals (cases h; rfl)
    · unfold Worker.stepOn; rw [hpc]
  | write rs =>
    apply quiet
    · unfold Worker.step at h
      rw [hpc] at h
      dsimp only at h
      repeat' split at h
      all_goals (cases h; rfl)
    · unfold Worker.stepOn; rw [hpc]
  | send rs =>
    apply quiet
    · unfold Worker.step at h
      rw [hpc] at h
      cases h; rfl
    · unfold Worker.stepOn; rw [hpc]
  | done => unfold Worker.step at h; rw [hpc] at h; cases h
  | stuck => unfold Worker.step at h; rw [hpc] at h; cases h
  | print rs left =>
    cases left with
    | nil =>
      apply quiet
      · unfold Worker.step at h
        rw [hpc] at h
        cases h; rfl
      · unfold Worker.stepOn; rw [hpc]
    | cons r left =>
      unfold Worker.step at h
      rw [hpc] at h
      cases h
      unfold Worker.stepOn
      rw [hpc]
      simp only [List.flatten_cons, List.flatten_nil, List.append_nil]
      refine ⟨fun hx => by rw [hx]; rfl, fun hx => ?_⟩
      rw [hx]
      exact ⟨_, _, rfl, rfl, ⟨r.text ++ c!"\n", rfl⟩, rfl, rfl⟩
  | eval =>
    obtain ⟨c1, c2⟩ := c89_block_partial hb net w.test ⟨w.ctx, [], []⟩ h0
    unfold Worker.step at h
    rw [hpc] at h
    dsimp only at h
    have cut : ∀ t : Str, broken (runBlock net w.test ⟨w.ctx, [], []⟩).2.out = true → e.out.flatten = (runBlock net w.test ⟨w.ctx, [], []⟩).2.out ++ t →
        ∃ w2 e2, w.stepOn broken cfg cont i net = some (w2, e2) ∧ e2.sent = [] ∧ e2.out.flatten <+: e.out.flatten ∧ w2.pc = .done ∧ w2.file = w.file := by
      intro t hx he
      obtain ⟨d1, -, more, d2⟩ := c2 hx
      unfold Worker.stepOn
      rw [hpc]
      dsimp only
      rw [he, d2]
      generalize runBlockOn broken net w.test ⟨w.ctx, [], []⟩ = q at d1
      obtain ⟨x, y⟩ := q
      dsimp only at d1
      subst d1
      refine ⟨_, _, rfl, rfl, ?_, rfl, rfl⟩
      exact ⟨more ++ t, by simp⟩
    cases hq : runBlock net w.test ⟨w.ctx, [], []⟩ with
    | mk x y =>
      rw [hq] at h c1 c2 cut
      dsimp only at c1 c2 cut
      have on : broken y.out = false → w.stepOn broken cfg cont i net =
          match (x, y) with
          | (.ok _, s) =>
            let (rs, ctx) := s.ctx.takeRecords
            some ({ w with pc := .print rs rs, ctx }, ⟨[s.out], []⟩)
          | (.err e, s) =>
            if broken (s.out ++ (e ++ c!"\n")) then some ({ w with pc := .done, ctx := s.ctx }, ⟨[s.out], []⟩)
            else if cfg.named then some ({ w with pc := .done, ctx := s.ctx }, ⟨[s.out, e ++ c!"\n"], []⟩)
            else
              let (rs, ctx) := s.ctx.takeRecords
              some ({ w with pc := .print rs rs, ctx }, ⟨[s.out, e ++ c!"\n"], []⟩)
          | (.panic, s) => some ({ w with pc := .done, ctx := s.ctx }, ⟨[s.out], []⟩)
          | (.hang, s) => some ({ w with pc := .stuck, ctx := s.ctx }, ⟨[s.out], []⟩) := by
        intro hx
        unfold Worker.stepOn
        rw [hpc]
        dsimp only
        rw [c1 hx]
        cases x <;> rfl
      cases x with
      | ok v =>
        cases h
        simp only [List.flatten_cons, List.flatten_nil, List.append_nil] at cut ⊢
        exact ⟨fun hx => by rw [on hx], fun hx => cut [] hx (by simp)⟩
      | panic =>
        cases h
        simp only [List.flatten_cons, List.flatten_nil, List.append_nil] at cut ⊢
        exact ⟨fun hx => by rw [on hx], fun hx => cut [] hx (by simp)⟩
      | hang =>
        cases h
        simp only [List.flatten_cons, List.flatten_nil, List.append_nil] at cut ⊢
        exact ⟨fun hx => by rw [on hx], fun hx => cut [] hx (by simp)⟩
      | err m =>
        dsimp only at h on
        have he : e.out = [y.out, m ++ c!"\n"] ∧ e.sent = [] := by
          split at h <;> (cases h; exact ⟨rfl, rfl⟩)
        have hf : e.out.flatten = y.out ++ (m ++ c!"\n") := by rw [he.1]; simp
        rw [hf] at cut ⊢
        refine ⟨fun hx => ?_, fun hx => ?_⟩
        · have hy : broken y.out = false := by
            cases hc : broken y.out with
            | false => rfl
            | true => rw [hb _ (m ++ c!"\n") hc] at hx; cases hx
          rw [on hy, if_neg (by rw [hx]; simp), ← h]
        · cases hc : broken y.out with
          | true => exact cut _ hc rfl
          | false =>
            rw [on hc, if_pos hx]
            exact ⟨_, _, rfl, rfl, ⟨m ++ c!"\n", by simp⟩, rfl, rfl⟩

/-- C89 for one step of a run of tests: if what the step prints can be printed, the step is the usual one; if not, the thread that prints it ends there:
the part that could be printed is printed, nothing goes to the statistics, and every other thread is as before. -/
theorem c89_step_partial {broken : Str → Bool} (hb : StaysBroken broken) (h0 : broken [] = false) (cfg : Config) (r r' : Run F) (s : RunStep)
    (new : List (Option Nat × Str)) (hs : r.step cfg s = some r') (hn : r'.out = r.out ++ new) :
    (broken (new.flatMap (·.2)) = false → r.stepOn broken cfg s = some r') ∧
    (broken (new.flatMap (·.2)) = true → ∃ q more, r.stepOn broken cfg s = some q ∧ q.channel = r.channel ∧ q.out = r.out ++ more ∧ q.stats = r.stats ∧
      more.flatMap (·.2) <+: new.flatMap (·.2) ∧
      ((∃ i net w w', s = .work i net ∧ r.workers[i]? = some w ∧ q.workers = r.workers.set i w' ∧ w'.pc = .done ∧ w'.file = w.file) ∨
        (s = .collect ∧ q.collector = .done ∧ q.workers = r.workers ∧ more = []))) := by
  cases s with
  | stop =>
    cases hs
    have : new = [] := by simpa using hn
    subst this
    exact ⟨fun _ => rfl, fun hx => by rw [List.flatMap_nil, h0] at hx; cases hx⟩
  | drop =>
    have he : r.stepOn broken cfg .drop = r.step cfg .drop := rfl
    rw [he, hs]
    unfold Run.step at hs
    dsimp only at hs
    split at hs
    · cases hs
      have : new = [] := by simpa using hn
      subst this
      exact ⟨fun _ => rfl, fun hx => by rw [List.flatMap_nil, h0] at hx; cases hx⟩
    · cases hs
  | work i net =>
    unfold Run.step at hs
    dsimp only at hs
    cases hw : r.workers[i]? with
    | none => rw [hw] at hs; cases hs
    | some w =>
      rw [hw] at hs
      dsimp only at hs
      cases hst : w.step cfg r.continuous i net with
      | none => rw [hst] at hs; cases hs
      | some p =>
        obtain ⟨w', e⟩ := p
        rw [hst] at hs
        cases hs
        dsimp only at hn
        have hnew := List.append_cancel_left hn
        subst hnew
        have flat : ∀ l : List Str, (l.map fun t => (some i, t)).flatMap (·.2) = l.flatten := fun l => by
          induction l with
          | nil => rfl
          | cons a l ih => simp [ih]
        rw [flat]
        obtain ⟨d1, d2⟩ := workerOn hb h0 cfg r.continuous i net w w' e hst
        refine ⟨fun hx => ?_, fun hx => ?_⟩
        · unfold Run.stepOn
          dsimp only
          rw [hw]
          dsimp only
          rw [d1 hx]
        · obtain ⟨w2, e2, f1, f2, f3, f4, f5⟩ := d2 hx
          have hq : r.stepOn broken cfg (.work i net) = some { r with
              workers := r.workers.set i w2
              channel := r.channel ++ e2.sent
              out := r.out ++ e2.out.map fun t => (some i, t) } := by
            unfold Run.stepOn
            dsimp only
            rw [hw]
            dsimp only
            rw [f1]
          refine ⟨_, e2.out.map fun t => (some i, t), hq, ?_, rfl, rfl, ?_, .inl ⟨i, net, w, w2, rfl, hw, rfl, f4, f5⟩⟩
          · dsimp only; rw [f2, List.append_nil]
          · rw [flat]; exact f3
  | collect =>
    cases hc : r.collector with
    | done => unfold Run.step at hs; rw [hc] at hs; cases hs
    | running =>
      cases hst : cfg.stat with
      | false =>
        have he : r.stepOn broken cfg .collect = r.step cfg .collect := by unfold Run.stepOn; dsimp only; rw [hst]; cases r.collector <;> rfl
        rw [he, hs]
        unfold Run.step at hs
        rw [hc, hst] at hs
        cases hs
        have : new = [] := by simpa using hn
        subst this
        exact ⟨fun _ => rfl, fun hx => by rw [List.flatMap_nil, h0] at hx; cases hx⟩
      | true =>
        cases hch : r.channel with
        | cons b q =>
          have he : r.stepOn broken cfg .collect = r.step cfg .collect := by unfold Run.stepOn; dsimp only; rw [hch]; cases r.collector <;> cases cfg.stat <;> rfl
          rw [he, hs]
          unfold Run.step at hs
          rw [hc, hst, hch] at hs
          cases hs
          have : new = [] := by simpa using hn
          subst this
          exact ⟨fun _ => rfl, fun hx => by rw [List.flatMap_nil, h0] at hx; cases hx⟩
        | nil =>
          have he : r.stepOn broken cfg .collect =
              if r.disconnected cfg && broken (r.stats.text F) then some { r with collector := .done } else r.step cfg .collect := by
            unfold Run.stepOn; dsimp only; rw [hc, hst, hch]
          rw [he, hs]
          unfold Run.step at hs
          rw [hc, hst, hch] at hs
          simp only [if_true] at hs
          split at hs
          · rename_i hd
            cases hs
            have := List.append_cancel_left hn
            subst this
            simp only [List.flatMap_cons, List.flatMap_nil, List.append_nil]
            refine ⟨fun hx => by rw [hx]; simp, fun hx => ?_⟩
            rw [hd, hx]
            exact ⟨_, [], rfl, hch, by simp, rfl, ⟨_, List.nil_append _⟩, .inr (by simp)⟩
          · cases hs

/-- Where a thread of a named test is between two steps. -/
def FileAt (i : Nat) (record : Bool) (name : Str) (test : List (Expr F)) (w : Worker F) (hist : List (Str × List Record)) (c : Context F) : Prop :=
  match w.pc with
  | .head => w.number = hist.length ∧ w.ctx = c ∧ w.file = fileFor record name i hist
  | .eval => w.number = hist.length ∧ w.ctx = c ∧ w.file = fileFor record name i hist
  | .print rs _ => w.number = hist.length ∧ w.file = fileFor record name i hist ∧
      ∃ net v s, runBlock net test ⟨c, [], []⟩ = (.ok v, s) ∧ rs = s.ctx.records ∧ w.ctx = { s.ctx with records := [] }
  | .write rs => w.number = hist.length ∧ w.file = fileFor record name i hist ∧
      ∃ net v s, runBlock net test ⟨c, [], []⟩ = (.ok v, s) ∧ rs = s.ctx.records ∧ w.ctx = { s.ctx with records := [] }
  | .send rs => w.number = hist.length ∧
      ∃ net v s, runBlock net test ⟨c, [], []⟩ = (.ok v, s) ∧ rs = s.ctx.records ∧ w.ctx = { s.ctx with records := [] } ∧
        w.file = fileFor record name i (hist ++ [(s.out, rs)])
  | .done => w.file = fileFor record name i hist
  | .stuck => w.file = fileFor record name i hist

def FileOk (i : Nat) (record : Bool) (name : Str) (test : List (Expr F)) (base : Context F) (w : Worker F) : Prop :=
  w.name = name ∧ w.test = test ∧ ∃ nets hist c, Iterations test base nets hist c ∧ FileAt i record name test w hist c

theorem fileFor_snoc (record : Bool) (name : Str) (i : Nat) (h : List (Str × List Record)) (o : Str) (rs : List Record) :
    (fileFor record name i h).map (fun f => f ++ encBlock rs name i h.length) = fileFor record name i (h ++ [(o, rs)]) := by
  unfold fileFor
  cases record with
  | true => simp [iterationFile_snoc]
  | false => rfl

theorem fileOk_init (i : Nat) (record : Bool) (name : Str) (test : List (Expr F)) (base : Context F) :
    FileOk i record name test base.clone (Worker.init record base name test) := by
  refine ⟨rfl, rfl, [], [], base.clone, .nil, rfl, rfl, ?_⟩
  simp only [Worker.init, fileFor, iterationFile, writerFile]
  cases record <;> simp

theorem fileOk_step {broken : Str → Bool} {cfg : Config} (hn : cfg.named = true) {i : Nat} {record : Bool} {name : Str} {test : List (Expr F)} {base : Context F}
    {w w' : Worker F} {cont : Bool} {net : Net} {e : Effect} (h : FileOk i record name test base w) (hs : w.stepOn broken cfg cont i net = some (w', e)) :
    FileOk i record name test base w' := by
  obtain ⟨h1, h2, nets, hist, c, hit, ha⟩ := h
  obtain ⟨p, n, t, x, k, f⟩ := w
  dsimp only at h1 h2
  subst h1 h2
  cases p with
  | head =>
    obtain ⟨a1, a2, a3⟩ := ha
    simp only [Worker.stepOn, Worker.step, hn, if_true] at hs
    split at hs
    · cases hs
      exact ⟨rfl, rfl, nets, hist, c, hit, a1, a2, a3⟩
    · cases hs
      exact ⟨rfl, rfl, nets, hist, c, hit, a3⟩
  | eval =>
    obtain ⟨a1, a2, a3⟩ := ha
    dsimp only at a1 a2 a3
    subst a2
    simp only [Worker.stepOn, hn, if_true] at hs
    rcases hr : runBlockOn broken net t ⟨x, [], []⟩ with ⟨r, s⟩
    rw [hr] at hs
    cases r with
    | ok v =>
      cases hs
      exact ⟨rfl, rfl, nets, hist, x, hit, a1, a3, net, v, s, runBlockOn_ok hr, rfl, rfl⟩
    | err m =>
      dsimp only at hs
      split at hs <;> cases hs <;> exact ⟨rfl, rfl, nets, hist, x, hit, a3⟩
    | panic => cases hs; exact ⟨rfl, rfl, nets, hist, x, hit, a3⟩
    | hang => cases hs; exact ⟨rfl, rfl, nets, hist, x, hit, a3⟩
  | print rs left =>
    obtain ⟨a1, a2, a3⟩ := ha
    cases left with
    | nil =>
      cases hs
      exact ⟨rfl, rfl, nets, hist, c, hit, a1, a2, a3⟩
    | cons r left =>
      simp only [Worker.stepOn] at hs
      split at hs
      · cases hs
        exact ⟨rfl, rfl, nets, hist, c, hit, a2⟩
      · cases hs
        exact ⟨rfl, rfl, nets, hist, c, hit, a1, a2, a3⟩
  | write rs =>
    obtain ⟨a1, a2, net', v, s, a3, a4, a5⟩ := ha
    simp only [Worker.stepOn, Worker.step, hn, if_true] at hs
    cases hs
    refine ⟨rfl, rfl, nets, hist, c, hit, a1, net', v, s, a3, a4, a5, ?_⟩
    dsimp only at a1 a2 ⊢
    rw [a2, a1]
    exact fileFor_snoc record _ i hist s.out rs
  | send rs =>
    obtain ⟨a1, net', v, s, a3, a4, a5, a6⟩ := ha
    dsimp only at a1 a3 a5 a6
    cases hs
    subst a4
    refine ⟨rfl, rfl, nets ++ [net'], _, _, .snoc hit a3, ?_, a5, a6⟩
    simp [a1]
  | done => cases hs
  | stuck => cases hs

/-- Every thread of the run is as described. -/
theorem fileOk_run {cfg : Config} (hn : cfg.named = true) {record : Bool} {name : Str} {test : List (Expr F)} {base : Context F} :
    ∀ (l : List (RunStep × (Str → Bool))) (r q : Run F), (∀ i w, r.workers[i]? = some w → FileOk i record name test base w) → r.runOn cfg l = some q →
      ∀ i w, q.workers[i]? = some w → FileOk i record name test base w := by
  intro l
  induction l with
  | nil =>
    intro r q h hr
    cases hr
    exact h
  | cons s l ih =>
    intro r q h hr
    obtain ⟨s, broken⟩ := s
    unfold Run.runOn at hr
    cases hs : r.stepOn broken cfg s with
    | none => rw [hs] at hr; simp at hr
    | some r1 =>
      rw [hs] at hr
      refine ih r1 q ?_ hr
      cases s with
      | work j net =>
        unfold Run.stepOn at hs
        dsimp only at hs
        cases hw : r.workers[j]? with
        | none => rw [hw] at hs; simp at hs
        | some w0 =>
          rw [hw] at hs
          dsimp only at hs
          cases hst : w0.stepOn broken cfg r.continuous j net with
          | none => rw [hst] at hs; simp at hs
          | some p =>
            obtain ⟨w1, e⟩ := p
            rw [hst] at hs
            cases hs
            intro i w hi
            dsimp only at hi
            rw [List.getElem?_set] at hi
            split at hi
            · rename_i hij
              subst hij
              split at hi
              · cases hi
                exact fileOk_step hn (h j w0 hw) hst
              · simp at hi
            · exact h i w hi
      | stop => cases hs; exact h
      | drop =>
        simp only [Run.stepOn, Run.step] at hs
        split at hs
        · cases hs; exact h
        · simp at hs
      | collect =>
        have hsame : r1.workers = r.workers := by
          unfold Run.stepOn at hs
          dsimp only at hs
          have hplain : ∀ {q : Run F}, r.step cfg .collect = some q → q.workers = r.workers := by
            intro q hq
            unfold Run.step at hq
            dsimp only at hq
            split at hq
            · simp at hq
            · split at hq
              · split at hq
                · cases hq; rfl
                · split at hq
                  · cases hq; rfl
                  · simp at hq
              · cases hq; rfl
          split at hs
          · split at hs
            · cases hs; rfl
            · exact hplain hs
          · exact hplain hs
        rw [hsame]
        exact h

/-- C89: whatever happens to the output and whenever, the record file of every thread consists of the blocks of its completed iterations, from
the first one on; none of them is cut off or missing in between. -/
theorem c89_file_partial (stat : Bool) (base : Context F) (name : Str) (test : List (Expr F)) (t n : Nat) (l : List (RunStep × (Str → Bool))) (r : Run F)
    (h : NamedRunOn true stat base name test t n l r) (i : Nat) (w : Worker F) (hw : r.workers[i]? = some w) :
    ∃ nets hist c, Iterations test base.clone nets hist c ∧ w.file = some (iterationFile name i hist) := by
  have := fileOk_run (cfg := ⟨true, n / t, stat⟩) rfl (record := true) (name := name) (test := test) (base := base.clone) l _ r (by
    intro j v hv
    unfold Run.init at hv
    dsimp only at hv
    rw [List.getElem?_replicate] at hv
    split at hv
    · cases hv
      exact fileOk_init j true name test base
    · simp at hv) h i w hw
  obtain ⟨_, _, nets, hist, c, h1, h2⟩ := this
  unfold FileAt at h2
  have hd : ∀ h, fileFor true name i h = some (iterationFile name i h) := fun _ => rfl
  split at h2
  · exact ⟨nets, hist, c, h1, h2.2.2⟩
  · exact ⟨nets, hist, c, h1, h2.2.2⟩
  · exact ⟨nets, hist, c, h1, h2.2.1⟩
  · exact ⟨nets, hist, c, h1, h2.2.1⟩
  · obtain ⟨_, net, v, s, a1, a2, _, a3⟩ := h2
    subst a2
    exact ⟨_, _, _, .snoc h1 a1, a3⟩
  · exact ⟨nets, hist, c, h1, h2⟩
  · exact ⟨nets, hist, c, h1, h2⟩

set_option maxRecDepth 100000 in
/-- C89 is false: a thread sends its request and takes the record; printing the record fails because the reader of the output is gone; the thread
has ended, and its record file contains no block. With a working output the file contains the exchange. -/
theorem c89_false (k : Clocks) : ∃ (l : List RunStep) (r r' : Run F) (w w' : Worker F) (v : Value F) (s : St F),
    runBlock (refusing k) [.call c!"ping" []] ⟨pingContext, [], []⟩ = (.ok v, s) ∧ s.sent = [c!"GET http://localhost/"] ∧ s.ctx.records = [pingRecord k] ∧
    NamedRunOn true false pingContext c!"t" [.call c!"ping" []] 1 1 (l.map fun s => (s, closedAfter 0)) r ∧ r.workers = [w] ∧ w.pc = .done ∧
    w.file = some (iterationFile c!"t" 0 []) ∧
    NamedRun true false pingContext c!"t" [.call c!"ping" []] 1 1 (l ++ l) r' ∧ r'.workers = [w'] ∧
    w'.file = some (iterationFile c!"t" 0 [([], [pingRecord k])]) :=
  ⟨[.work 0 (refusing k), .work 0 (refusing k), .work 0 (refusing k)], _, _, _, _, _, _, rfl, rfl, rfl, rfl, rfl, rfl, rfl, rfl, rfl,
    congrArg some (iterationFile_snoc c!"t" 0 [] [] [pingRecord k]).symm⟩

/-- The statistics of a run whose threads have ended, with a reader and without one. -/
example (h : Stats.text F [(c!"a", ⟨1, 5, 5, 5, 5⟩)] ≠ []) :
    ((⟨[], true, [], false, .running, [(c!"a", ⟨1, 5, 5, 5, 5⟩)], []⟩ : Run F).stepOn working ⟨true, 1, true⟩ .collect).map (·.out.length) = some 1 ∧
    ((⟨[], true, [], false, .running, [(c!"a", ⟨1, 5, 5, 5, 5⟩)], []⟩ : Run F).stepOn (closedAfter 0) ⟨true, 1, true⟩ .collect).map (·.out.length) = some 0 := by
  constructor
  · rfl
  · have : closedAfter 0 (Stats.text F [(c!"a", ⟨1, 5, 5, 5, 5⟩)]) = true := by simp [closedAfter, List.length_pos_iff, h]
    simp [Run.stepOn, Run.disconnected, Run.workersDone, this]

/-- A script that prints eight characters: it ends when eight can be written, and it crashes after the first line when only six can. -/
example (net : Net) : runBlockOn (F := F) (closedAfter 8) net [.call c!"println" [.str c!"abc"], .call c!"println" [.str c!"def"]] ⟨Context.new, [], []⟩ =
      (.ok .null, ⟨Context.new, [], c!"abc\ndef\n"⟩) ∧
    runBlockOn (F := F) (closedAfter 6) net [.call c!"println" [.str c!"abc"], .call c!"println" [.str c!"def"]] ⟨Context.new, [], []⟩ =
      (.panic, ⟨Context.new, [], c!"abc\n"⟩) := ⟨rfl, rfl⟩

end Am
