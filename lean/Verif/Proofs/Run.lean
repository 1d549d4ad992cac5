import Verif.Spec.Run
/-! # Runs of tests: invariants -/
set_option linter.unusedSimpArgs false
set_option linter.unusedSectionVars false
namespace Am
open Spec
variable {F : Type} [Rt F]

/-! ## One worker in a run with a test name -/

/-- The batches sent for the iterations. -/
def sentFor (cfg : Config) (hist : List (Str × List Record)) : List (List Record) := if cfg.stat then hist.map Prod.snd else []

/-- The record file, if there is one. -/
def fileFor (record : Bool) (name : Str) (i : Nat) (hist : List (Str × List Record)) : Option (List UInt8) :=
  if record then some (iterationFile name i hist) else none

/-- Lines printed for records. -/
def recordLines (rs : List Record) : List Str := rs.map fun r => r.text ++ c!"\n"

/-- The state of a worker in terms of the iterations `hist` it has evaluated successfully with the networks `good`, ending in context `c`. -/
def NamedAt (cfg : Config) (i : Nat) (record : Bool) (name : Str) (test : List (Expr F)) (w : Worker F) (ins : List (Bool × Net)) (nets : List Net)
    (out : List Str) (sent : List (List Record)) (good : List Net) (hist : List (Str × List Record)) (c : Context F) : Prop :=
  match w.pc with
  | .head => nets = good ∧ w.ctx = c ∧ w.number = hist.length ∧ w.number ≤ cfg.maximum ∧ w.file = fileFor record name i hist ∧
      out = chunks hist ∧ sent = sentFor cfg hist
  | .eval => nets = good ∧ w.ctx = c ∧ w.number = hist.length ∧ w.number < cfg.maximum ∧ w.file = fileFor record name i hist ∧
      out = chunks hist ∧ sent = sentFor cfg hist
  | .print rs left => ∃ h0 o pre, hist = h0 ++ [(o, rs)] ∧ rs = pre ++ left ∧ nets = good ∧ w.ctx = c ∧ w.number = h0.length ∧
      w.number < cfg.maximum ∧ w.file = fileFor record name i h0 ∧ out = chunks h0 ++ o :: recordLines pre ∧ sent = sentFor cfg h0
  | .write rs => ∃ h0 o, hist = h0 ++ [(o, rs)] ∧ nets = good ∧ w.ctx = c ∧ w.number = h0.length ∧
      w.number < cfg.maximum ∧ w.file = fileFor record name i h0 ∧ out = chunks hist ∧ sent = sentFor cfg h0
  | .send rs => ∃ h0 o, hist = h0 ++ [(o, rs)] ∧ nets = good ∧ w.ctx = c ∧ w.number = h0.length ∧
      w.number < cfg.maximum ∧ w.file = fileFor record name i hist ∧ out = chunks hist ∧ sent = sentFor cfg h0
  | .done => w.number = hist.length ∧ w.file = fileFor record name i hist ∧ sent = sentFor cfg hist ∧
      ((nets = good ∧ w.ctx = c ∧ out = chunks hist ∧ w.number ≤ cfg.maximum ∧ ((∀ x ∈ ins, x.1 = true) → w.number = cfg.maximum)) ∨
       (∃ net s, nets = good ++ [net] ∧ w.number < cfg.maximum ∧
        ((∃ e, runBlock net test ⟨c, [], []⟩ = (.err e, s) ∧ out = chunks hist ++ [s.out, e ++ c!"\n"]) ∨
         (runBlock net test ⟨c, [], []⟩ = (.panic, s) ∧ out = chunks hist ++ [s.out]))))
  | .stuck => w.number = hist.length ∧ w.file = fileFor record name i hist ∧ sent = sentFor cfg hist ∧
      ∃ net s, nets = good ++ [net] ∧ w.number < cfg.maximum ∧ runBlock net test ⟨c, [], []⟩ = (.hang, s) ∧ out = chunks hist ++ [s.out]

/-- The invariant of a worker in a run with a test name. -/
def NamedOk (cfg : Config) (i : Nat) (record : Bool) (name : Str) (test : List (Expr F)) (base : Context F) (w : Worker F) (ins : List (Bool × Net))
    (nets : List Net) (out : List Str) (sent : List (List Record)) : Prop :=
  w.name = name ∧ w.test = test ∧ ∃ good hist c, Iterations test base good hist c ∧ NamedAt cfg i record name test w ins nets out sent good hist c

theorem chunks_snoc (h : List (Str × List Record)) (o : Str) (rs : List Record) : chunks (h ++ [(o, rs)]) = chunks h ++ o :: recordLines rs := by
  simp [chunks, recordLines]

theorem sentFor_snoc (cfg : Config) (h : List (Str × List Record)) (o : Str) (rs : List Record) :
    sentFor cfg (h ++ [(o, rs)]) = sentFor cfg h ++ if cfg.stat then [rs] else [] := by
  unfold sentFor; cases cfg.stat <;> simp

theorem iterationFile_snoc (name : Str) (i : Nat) (h : List (Str × List Record)) (o : Str) (rs : List Record) :
    iterationFile name i (h ++ [(o, rs)]) = iterationFile name i h ++ encBlock rs name i h.length := by
  simp [iterationFile, writerFile, List.zipIdx_append, Batch.bytes]

theorem named_init (cfg : Config) (i : Nat) (record : Bool) (name : Str) (test : List (Expr F)) (base : Context F) :
    NamedOk cfg i record name test base.clone (Worker.init record base name test) [] [] [] [] := by
  refine ⟨rfl, rfl, [], [], base.clone, .nil, ?_⟩
  refine ⟨rfl, rfl, rfl, Nat.zero_le _, ?_, rfl, ?_⟩
  · simp only [Worker.init, fileFor, iterationFile, writerFile]
    cases record <;> simp
  · unfold sentFor; cases cfg.stat <;> rfl

theorem named_step {cfg : Config} (hn : cfg.named = true) {i : Nat} {record : Bool} {name : Str} {test : List (Expr F)} {base : Context F} {w w' : Worker F}
    {ins : List (Bool × Net)} {nets : List Net} {out : List Str} {sent : List (List Record)} {cont : Bool} {net : Net} {e : Effect}
    (h : NamedOk cfg i record name test base w ins nets out sent) (hs : w.step cfg cont i net = some (w', e)) :
    NamedOk cfg i record name test base w' (ins ++ [(cont, net)]) (nets ++ if w.pc = .eval then [net] else []) (out ++ e.out) (sent ++ e.sent) := by
  obtain ⟨hname, htest, good, hist, c, hit, ha⟩ := h
  unfold NamedAt at ha
  unfold Worker.step at hs
  cases hpc : w.pc with
  | head =>
    rw [hpc] at ha hs
    obtain ⟨a1, a2, a3, a4, a5, a6, a7⟩ := ha
    simp only [hn, if_true] at hs
    split at hs
    · rename_i hc
      cases hs
      simp only [Bool.and_eq_true, decide_eq_true_eq] at hc
      exact ⟨hname, htest, good, hist, c, hit, by simpa using a1, a2, a3, hc.2, a5, by simpa using a6, by simpa using a7⟩
    · rename_i hc
      cases hs
      refine ⟨hname, htest, good, hist, c, hit, a3, a5, by simpa using a7, Or.inl ⟨by simpa using a1, a2, by simpa using a6, a4, ?_⟩⟩
      intro hall
      have := hall (cont, net) (by simp)
      simp only at this
      subst this
      simp only [Bool.true_and, decide_eq_true_eq, Nat.not_lt] at hc
      exact Nat.le_antisymm a4 hc
  | eval =>
    rw [hpc] at ha hs
    obtain ⟨a1, a2, a3, a4, a5, a6, a7⟩ := ha
    subst a1
    rw [htest, a2] at hs
    simp only [if_true]
    match hr : runBlock net test ⟨c, [], []⟩ with
    | (.ok v, s) =>
      rw [hr] at hs
      simp only [Context.takeRecords, Option.some.injEq, Prod.mk.injEq] at hs
      obtain ⟨hs1, hs2⟩ := hs
      subst hs1 hs2
      refine ⟨hname, rfl, _, _, _, .snoc hit hr, ?_⟩
      refine ⟨hist, s.out, [], rfl, rfl, rfl, rfl, a3, a4, a5, ?_, ?_⟩
      · simp [a6, recordLines]
      · simp [a7]
    | (.err er, s) =>
      rw [hr] at hs
      simp only [hn, if_true, Option.some.injEq, Prod.mk.injEq] at hs
      obtain ⟨hs1, hs2⟩ := hs
      subst hs1 hs2
      refine ⟨hname, rfl, _, _, _, hit, a3, a5, by simp [a7], Or.inr ⟨net, s, rfl, a4, Or.inl ⟨er, hr, by rw [a6]⟩⟩⟩
    | (.panic, s) =>
      rw [hr] at hs
      simp only [Option.some.injEq, Prod.mk.injEq] at hs
      obtain ⟨hs1, hs2⟩ := hs
      subst hs1 hs2
      exact ⟨hname, rfl, _, _, _, hit, a3, a5, by simp [a7], Or.inr ⟨net, s, rfl, a4, Or.inr ⟨hr, by rw [a6]⟩⟩⟩
    | (.hang, s) =>
      rw [hr] at hs
      simp only [Option.some.injEq, Prod.mk.injEq] at hs
      obtain ⟨hs1, hs2⟩ := hs
      subst hs1 hs2
      exact ⟨hname, rfl, _, _, _, hit, a3, a5, by simp [a7], net, s, rfl, a4, hr, by rw [a6]⟩
  | print rs left =>
    rw [hpc] at ha hs
    obtain ⟨h0, o, pre, b1, b2, a1, a2, a3, a4, a5, a6, a7⟩ := ha
    cases left with
    | nil =>
      simp only [Option.some.injEq, Prod.mk.injEq] at hs
      obtain ⟨hs1, hs2⟩ := hs
      subst hs1 hs2
      refine ⟨hname, htest, good, hist, c, hit, h0, o, b1, by simpa using a1, a2, a3, a4, a5, ?_, by simpa using a7⟩
      rw [List.append_nil] at b2
      rw [a6, b1, chunks_snoc, b2, List.append_nil]
    | cons r left =>
      simp only [Option.some.injEq, Prod.mk.injEq] at hs
      obtain ⟨hs1, hs2⟩ := hs
      subst hs1 hs2
      refine ⟨hname, htest, good, hist, c, hit, h0, o, pre ++ [r], b1, by simpa using b2, by simpa using a1, a2, a3, a4, a5, ?_, by simpa using a7⟩
      rw [a6]
      simp [recordLines]
  | write rs =>
    rw [hpc] at ha hs
    obtain ⟨h0, o, b1, a1, a2, a3, a4, a5, a6, a7⟩ := ha
    simp only [hn, if_true, Option.some.injEq, Prod.mk.injEq] at hs
    obtain ⟨hs1, hs2⟩ := hs
    subst hs1 hs2
    refine ⟨hname, htest, good, hist, c, hit, h0, o, b1, by simpa using a1, a2, a3, a4, ?_, by simpa using a6, by simpa using a7⟩
    simp only [a5, fileFor, b1, a3, hname]
    cases record
    · rfl
    · simp [iterationFile_snoc]
  | send rs =>
    rw [hpc] at ha hs
    obtain ⟨h0, o, b1, a1, a2, a3, a4, a5, a6, a7⟩ := ha
    simp only [Option.some.injEq, Prod.mk.injEq] at hs
    obtain ⟨hs1, hs2⟩ := hs
    subst hs1 hs2
    refine ⟨hname, htest, good, hist, c, hit, by simpa using a1, a2, ?_, a4, a5, by simpa using a6, ?_⟩
    · simp [b1, a3]
    · rw [a7, b1, sentFor_snoc]
  | done => rw [hpc] at hs; cases hs
  | stuck => rw [hpc] at hs; cases hs

/-- The invariant is kept by every sequence of steps. -/
theorem named_run {cfg : Config} (hn : cfg.named = true) {i : Nat} {record : Bool} {name : Str} {test : List (Expr F)} {base : Context F} {l : List (Bool × Net)} :
    ∀ {w w' : Worker F} {ins : List (Bool × Net)} {nets : List Net} {out o : List Str} {sent s : List (List Record)},
    NamedOk cfg i record name test base w ins nets out sent → workerRun cfg i w l = some (w', o, s) →
    NamedOk cfg i record name test base w' (ins ++ l) (nets ++ evalNets cfg i w l) (out ++ o) (sent ++ s) := by
  induction l with
  | nil =>
    intro w w' ins nets out o sent s h hr
    cases hr
    simpa [evalNets] using h
  | cons x l ih =>
    intro w w' ins nets out o sent s h hr
    obtain ⟨cont, net⟩ := x
    simp only [workerRun] at hr
    cases hst : w.step cfg cont i net with
    | none => rw [hst] at hr; cases hr
    | some p =>
      obtain ⟨w1, e⟩ := p
      rw [hst] at hr
      simp only [Option.map_eq_some_iff] at hr
      obtain ⟨⟨w2, o2, s2⟩, h2, h3⟩ := hr
      cases h3
      have := ih (named_step hn h hst) h2
      simp only [evalNets, hst]
      simpa [List.append_assoc] using this

/-! ## One worker in a run of all tests -/

/-- The state of a worker in a run of all tests. -/
def AllAt (i : Nat) (record : Bool) (name : Str) (test : List (Expr F)) (base : Context F) (w : Worker F) (nets : List Net) (out : List Str) : Prop :=
  match w.pc with
  | .head => nets = [] ∧ w.ctx = base ∧ w.file = fileFor record name i [] ∧ out = []
  | .eval => nets = [] ∧ w.ctx = base ∧ w.file = fileFor record name i [] ∧ out = []
  | .print rs left => ∃ net, nets = [net] ∧ w.file = fileFor record name i [] ∧ ∃ pre s, rs = pre ++ left ∧ s.ctx.records = rs ∧
      ((∃ v, runBlock net test ⟨base, [], []⟩ = (.ok v, s) ∧ out = s.out :: recordLines pre) ∨
       ∃ e, runBlock net test ⟨base, [], []⟩ = (.err e, s) ∧ out = s.out :: (e ++ c!"\n") :: recordLines pre)
  | .write rs => ∃ net, nets = [net] ∧ w.file = fileFor record name i [] ∧ ∃ s, s.ctx.records = rs ∧
      ((∃ v, runBlock net test ⟨base, [], []⟩ = (.ok v, s) ∧ out = s.out :: recordLines rs) ∨
       ∃ e, runBlock net test ⟨base, [], []⟩ = (.err e, s) ∧ out = s.out :: (e ++ c!"\n") :: recordLines rs)
  | .send _ => False
  | .done => ∃ net s, nets = [net] ∧
      ((runBlock net test ⟨base, [], []⟩ = (.panic, s) ∧ w.file = fileFor record name i [] ∧ out = [s.out]) ∨
       (w.file = fileFor record name i [(s.out, s.ctx.records)] ∧
        ((∃ v, runBlock net test ⟨base, [], []⟩ = (.ok v, s) ∧ out = s.out :: recordLines s.ctx.records) ∨
         ∃ e, runBlock net test ⟨base, [], []⟩ = (.err e, s) ∧ out = s.out :: (e ++ c!"\n") :: recordLines s.ctx.records)))
  | .stuck => ∃ net s, nets = [net] ∧ runBlock net test ⟨base, [], []⟩ = (.hang, s) ∧ w.file = fileFor record name i [] ∧ out = [s.out]

/-- The invariant of a worker in a run of all tests. -/
def AllOk (i : Nat) (record : Bool) (name : Str) (test : List (Expr F)) (base : Context F) (w : Worker F) (nets : List Net) (out : List Str)
    (sent : List (List Record)) : Prop :=
  w.name = name ∧ w.test = test ∧ w.number = 0 ∧ sent = [] ∧ AllAt i record name test base w nets out

theorem all_init (i : Nat) (record : Bool) (name : Str) (test : List (Expr F)) (base : Context F) :
    AllOk i record name test base.clone (Worker.init record base name test) [] [] [] := by
  refine ⟨rfl, rfl, rfl, rfl, rfl, rfl, ?_, rfl⟩
  simp only [Worker.init, fileFor, iterationFile, writerFile]
  cases record <;> simp

theorem all_step {cfg : Config} (hn : cfg.named = false) {i : Nat} {record : Bool} {name : Str} {test : List (Expr F)} {base : Context F} {w w' : Worker F}
    {nets : List Net} {out : List Str} {sent : List (List Record)} {cont : Bool} {net : Net} {e : Effect}
    (h : AllOk i record name test base w nets out sent) (hs : w.step cfg cont i net = some (w', e)) :
    AllOk i record name test base w' (nets ++ if w.pc = .eval then [net] else []) (out ++ e.out) (sent ++ e.sent) := by
  obtain ⟨hname, htest, hnum, hsent, ha⟩ := h
  subst hsent
  unfold AllAt at ha
  unfold Worker.step at hs
  cases hpc : w.pc with
  | head =>
    rw [hpc] at ha hs
    simp only [hn, Bool.false_eq_true, if_false, Option.some.injEq, Prod.mk.injEq] at hs
    obtain ⟨hs1, hs2⟩ := hs
    subst hs1 hs2
    obtain ⟨a1, a2, a3, a4⟩ := ha
    exact ⟨hname, htest, hnum, rfl, by simpa using a1, a2, a3, by simpa using a4⟩
  | eval =>
    rw [hpc] at ha hs
    obtain ⟨a1, a2, a3, a4⟩ := ha
    subst a1 a4
    rw [htest, a2] at hs
    simp only [if_true]
    match hr : runBlock net test ⟨base, [], []⟩ with
    | (.ok v, s) =>
      rw [hr] at hs
      simp only [Context.takeRecords, Option.some.injEq, Prod.mk.injEq] at hs
      obtain ⟨hs1, hs2⟩ := hs
      subst hs1 hs2
      exact ⟨hname, rfl, hnum, rfl, net, rfl, a3, [], s, rfl, rfl, Or.inl ⟨v, hr, rfl⟩⟩
    | (.err er, s) =>
      rw [hr] at hs
      simp only [hn, Bool.false_eq_true, if_false, Context.takeRecords, Option.some.injEq, Prod.mk.injEq] at hs
      obtain ⟨hs1, hs2⟩ := hs
      subst hs1 hs2
      exact ⟨hname, rfl, hnum, rfl, net, rfl, a3, [], s, rfl, rfl, Or.inr ⟨er, hr, rfl⟩⟩
    | (.panic, s) =>
      rw [hr] at hs
      simp only [Option.some.injEq, Prod.mk.injEq] at hs
      obtain ⟨hs1, hs2⟩ := hs
      subst hs1 hs2
      exact ⟨hname, rfl, hnum, rfl, net, s, rfl, Or.inl ⟨hr, a3, rfl⟩⟩
    | (.hang, s) =>
      rw [hr] at hs
      simp only [Option.some.injEq, Prod.mk.injEq] at hs
      obtain ⟨hs1, hs2⟩ := hs
      subst hs1 hs2
      exact ⟨hname, rfl, hnum, rfl, net, s, rfl, hr, a3, rfl⟩
  | print rs left =>
    rw [hpc] at ha hs
    obtain ⟨net0, a1, a2, pre, s, a3, a4, a5⟩ := ha
    cases left with
    | nil =>
      simp only [Option.some.injEq, Prod.mk.injEq] at hs
      obtain ⟨hs1, hs2⟩ := hs
      subst hs1 hs2
      rw [List.append_nil] at a3
      subst a3
      refine ⟨hname, htest, hnum, rfl, net0, by simpa using a1, a2, s, a4, ?_⟩
      rw [List.append_nil]
      exact a5
    | cons r left =>
      simp only [Option.some.injEq, Prod.mk.injEq] at hs
      obtain ⟨hs1, hs2⟩ := hs
      subst hs1 hs2
      refine ⟨hname, htest, hnum, rfl, net0, by simpa using a1, a2, pre ++ [r], s, by simpa using a3, a4, ?_⟩
      rcases a5 with ⟨v, h1, h2⟩ | ⟨er, h1, h2⟩
      · exact Or.inl ⟨v, h1, by simp [h2, recordLines]⟩
      · exact Or.inr ⟨er, h1, by simp [h2, recordLines]⟩
  | write rs =>
    rw [hpc] at ha hs
    obtain ⟨net0, a1, a2, s, a4, a5⟩ := ha
    simp only [hn, Bool.false_eq_true, if_false, Option.some.injEq, Prod.mk.injEq] at hs
    obtain ⟨hs1, hs2⟩ := hs
    subst hs1 hs2
    subst a4
    refine ⟨hname, htest, hnum, rfl, net0, s, by simpa using a1, Or.inr ⟨?_, by simpa using a5⟩⟩
    simp only [a2, fileFor, hnum, hname]
    cases record
    · rfl
    · have := iterationFile_snoc name i [] s.out s.ctx.records
      simp only [List.nil_append, List.length_nil] at this
      simp [this]
  | send rs => rw [hpc] at ha; exact ha.elim
  | done => rw [hpc] at hs; cases hs
  | stuck => rw [hpc] at hs; cases hs

/-- The invariant is kept by every sequence of steps. -/
theorem all_run {cfg : Config} (hn : cfg.named = false) {i : Nat} {record : Bool} {name : Str} {test : List (Expr F)} {base : Context F} {l : List (Bool × Net)} :
    ∀ {w w' : Worker F} {nets : List Net} {out o : List Str} {sent s : List (List Record)},
    AllOk i record name test base w nets out sent → workerRun cfg i w l = some (w', o, s) →
    AllOk i record name test base w' (nets ++ evalNets cfg i w l) (out ++ o) (sent ++ s) := by
  induction l with
  | nil =>
    intro w w' nets out o sent s h hr
    cases hr
    simpa [evalNets] using h
  | cons x l ih =>
    intro w w' nets out o sent s h hr
    obtain ⟨cont, net⟩ := x
    simp only [workerRun] at hr
    cases hst : w.step cfg cont i net with
    | none => rw [hst] at hr; cases hr
    | some p =>
      obtain ⟨w1, e⟩ := p
      rw [hst] at hr
      simp only [Option.map_eq_some_iff] at hr
      obtain ⟨⟨w2, o2, s2⟩, h2, h3⟩ := hr
      cases h3
      have := ih (all_step hn h hst) h2
      simp only [evalNets, hst]
      simpa [List.append_assoc] using this

/-! ## The whole program -/

/-- The batches sent by worker `i`. -/
def sentBy (i : Nat) (log : List (Nat × List Record)) : List (List Record) := (log.filter fun p => p.1 == i).map Prod.snd

/-- Every run is made of the runs of its workers alone on what they see of the schedule; what arrives at the statistics thread, or is still in
the channel, is what they sent, in some order. -/
theorem run_project {cfg : Config} {l : List RunStep} : ∀ {r r' : Run F}, r.run cfg l = some r' →
    r'.workers.length = r.workers.length ∧
    ∃ (log : List (Nat × List Record)) (received : List (List Record)),
      (∀ p ∈ log, p.1 < r.workers.length) ∧
      received ++ r'.channel = r.channel ++ log.map Prod.snd ∧ r'.stats = received.foldl addBatch r.stats ∧
      ∀ i w, r.workers[i]? = some w → ∃ w' o, workerRun cfg i w (inputs i r.continuous l) = some (w', o, sentBy i log) ∧ r'.workers[i]? = some w' ∧
        outOf (some i) r'.out = outOf (some i) r.out ++ o := by
  induction l with
  | nil =>
    intro r r' h
    cases h
    exact ⟨rfl, [], [], by simp, by simp, rfl, fun i w hw => ⟨w, [], rfl, hw, by simp⟩⟩
  | cons st l ih =>
    intro r r' h
    rw [Run.run, Option.bind_eq_some_iff] at h
    obtain ⟨r1, h1, h2⟩ := h
    obtain ⟨hlen, log, received, g0, g1, g2, g3⟩ := ih h2
    cases st with
    | work i net =>
      simp only [Run.step] at h1
      split at h1
      · cases h1
      · rename_i w hw
        split at h1
        · cases h1
        · rename_i w1 e he
          cases h1
          dsimp only at hlen g0 g1 g2 g3
          rw [List.length_set] at hlen g0
          have hi : i < r.workers.length := by
            rw [List.getElem?_eq_some_iff] at hw; exact hw.1
          refine ⟨hlen, e.sent.map (fun b => (i, b)) ++ log, received, ?_, ?_, g2, ?_⟩
          · intro p hp
            rcases List.mem_append.1 hp with hp | hp
            · obtain ⟨b, _, rfl⟩ := List.mem_map.1 hp; exact hi
            · exact g0 p hp
          · rw [g1]; simp [Function.comp_def]
          · intro j wj hj
            by_cases hij : i = j
            · subst hij
              rw [hw] at hj; cases hj
              obtain ⟨w', o, k1, k2, k3⟩ := g3 i w1 (by rw [List.getElem?_set_self hi])
              refine ⟨w', e.out ++ o, ?_, k2, ?_⟩
              · simp only [inputs, if_pos, workerRun, he, k1, Option.map_some, sentBy, List.filter_append, List.map_append]
                congr 4
                rw [List.filter_eq_self.2 (by intro p hp; obtain ⟨b, _, rfl⟩ := List.mem_map.1 hp; simp)]
                simp [Function.comp_def]
              · rw [k3]
                simp only [outOf, List.filter_append, List.map_append, List.append_assoc]
                congr 2
                rw [List.filter_eq_self.2 (by intro p hp; obtain ⟨b, _, rfl⟩ := List.mem_map.1 hp; simp)]
                simp [Function.comp_def]
            · obtain ⟨w', o, k1, k2, k3⟩ := g3 j wj (by rw [List.getElem?_set_ne hij]; exact hj)
              refine ⟨w', o, ?_, k2, ?_⟩
              · simp only [inputs, if_neg hij, k1, sentBy, List.filter_append, List.map_append]
                have e0 : (e.sent.map fun b => (i, b)).filter (fun p => p.1 == j) = [] :=
                  List.filter_eq_nil_iff.2 (by intro p hp; obtain ⟨b, _, rfl⟩ := List.mem_map.1 hp; simpa using hij)
                rw [e0]
                simp
              · rw [k3]
                simp only [outOf, List.filter_append, List.map_append]
                have e0 : (e.out.map fun t => (some i, t)).filter (fun p => p.1 == some j) = [] :=
                  List.filter_eq_nil_iff.2 (by intro p hp; obtain ⟨b, _, rfl⟩ := List.mem_map.1 hp; simpa using hij)
                rw [e0]
                simp
    | stop =>
      cases h1
      exact ⟨hlen, log, received, g0, g1, g2, g3⟩
    | drop =>
      simp only [Run.step] at h1
      split at h1
      · cases h1
        exact ⟨hlen, log, received, g0, g1, g2, g3⟩
      · cases h1
    | collect =>
      simp only [Run.step] at h1
      split at h1
      · cases h1
      · split at h1
        · split at h1
          · rename_i b q hch
            cases h1
            dsimp only at hlen g0 g1 g2 g3
            exact ⟨hlen, log, b :: received, g0, by rw [hch, List.cons_append, g1]; rfl, by rw [g2]; rfl, g3⟩
          · rename_i hch
            split at h1
            · cases h1
              refine ⟨hlen, log, received, g0, by rw [g1], g2, ?_⟩
              intro i w hw
              obtain ⟨w', o, k1, k2, k3⟩ := g3 i w hw
              refine ⟨w', o, k1, k2, ?_⟩
              rw [k3]
              simp [outOf]
            · cases h1
        · cases h1
          exact ⟨hlen, log, received, g0, g1, g2, g3⟩

end Am
