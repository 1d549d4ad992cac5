import Verif.Spec.AnyThreads
import Verif.Proofs.Run
import Verif.Props.AnyOrder
import Verif.Props.EveryOrder
import Verif.Props.TypingAny
/-! # C135: runs of tests whatever the order of hash maps -/
set_option linter.unusedSimpArgs false
set_option linter.unusedSectionVars false
namespace Am
open Spec
variable {F : Type} [Rt F]

/-! ## The runs of the model are among them -/

theorem step_evaluated (cfg : Config) (cont : Bool) (i : Nat) (net : Net) (w : Worker F) (h : w.pc = .eval) :
    w.step cfg cont i net = some (w.evaluated cfg (runBlock net w.test ⟨w.ctx, [], []⟩)) := by
  unfold Worker.step
  rw [h]
  dsimp only
  rcases runBlock net w.test ⟨w.ctx, [], []⟩ with ⟨r, s⟩
  cases r with
  | err e =>
    simp only [Worker.evaluated, Context.takeRecords]
    split <;> rfl
  | _ => rfl

theorem anySteps_cons {cfg : Config} {r q p : Run F} {s : RunStep} {l : List RunStep} (h : r.anyStep cfg s q) (hl : Run.AnySteps cfg q l p) :
    Run.AnySteps cfg r (s :: l) p := by
  induction hl with
  | nil => exact .snoc (l := []) (.nil _) h
  | snoc _ h2 ih => exact .snoc (l := _ :: _) ih h2

theorem step_allowed (hi : Visits (Rt.order F)) (cfg : Config) {r q : Run F} {s : RunStep} (h : r.step cfg s = some q) : r.anyStep cfg s q := by
  cases s with
  | work i net =>
    unfold Run.step at h
    unfold Run.anyStep
    dsimp only at h ⊢
    cases hw : r.workers[i]? with
    | none => rw [hw] at h; cases h
    | some w =>
      rw [hw] at h
      dsimp only at h
      cases hx : w.step cfg r.continuous i net with
      | none => rw [hx] at h; cases h
      | some x =>
        rw [hx] at h
        injection h with h
        refine ⟨w, x, rfl, ?_, h.symm⟩
        unfold Worker.anyStep
        split
        · next hp =>
          rw [step_evaluated cfg _ i net w hp] at hx
          exact ⟨_, c126_allowed hi net w.test _, (Option.some.inj hx).symm⟩
        · exact hx
  | _ => exact h

/-- C135: whatever order of hash maps the model is given, its runs of tests are possible runs. -/
theorem c135_allowed (hi : Visits (Rt.order F)) (cfg : Config) (sched : List RunStep) {r q : Run F} (h : r.run cfg sched = some q) : Run.AnySteps cfg r sched q := by
  induction sched generalizing r with
  | nil => cases h; exact .nil _
  | cons s l ih =>
    unfold Run.run at h
    cases hs : r.step cfg s with
    | none => rw [hs] at h; cases h
    | some p =>
      rw [hs] at h
      exact anySteps_cons (step_allowed hi cfg hs) (ih h)

/-! ## Named tests -/

/-- The state of a worker in terms of its iterations `hist`, which end in context `c`. -/
def AnyAt (cfg : Config) (i : Nat) (record : Bool) (name : Str) (test : List (Expr F)) (w : Worker F) (out : List Str) (sent : List (List Record))
    (hist : List (Str × List Record)) (c : Context F) : Prop :=
  match w.pc with
  | .head => w.ctx = c ∧ w.number = hist.length ∧ w.number ≤ cfg.maximum ∧ w.file = fileFor record name i hist ∧ out = chunks hist ∧ sent = sentFor cfg hist
  | .eval => w.ctx = c ∧ w.number = hist.length ∧ w.number < cfg.maximum ∧ w.file = fileFor record name i hist ∧ out = chunks hist ∧ sent = sentFor cfg hist
  | .print rs left => ∃ h0 o pre, hist = h0 ++ [(o, rs)] ∧ rs = pre ++ left ∧ w.ctx = c ∧ w.number = h0.length ∧
      w.number < cfg.maximum ∧ w.file = fileFor record name i h0 ∧ out = chunks h0 ++ o :: recordLines pre ∧ sent = sentFor cfg h0
  | .write rs => ∃ h0 o, hist = h0 ++ [(o, rs)] ∧ w.ctx = c ∧ w.number = h0.length ∧
      w.number < cfg.maximum ∧ w.file = fileFor record name i h0 ∧ out = chunks hist ∧ sent = sentFor cfg h0
  | .send rs => ∃ h0 o, hist = h0 ++ [(o, rs)] ∧ w.ctx = c ∧ w.number = h0.length ∧
      w.number < cfg.maximum ∧ w.file = fileFor record name i hist ∧ out = chunks hist ∧ sent = sentFor cfg h0
  | .done => w.number = hist.length ∧ w.number ≤ cfg.maximum ∧ w.file = fileFor record name i hist ∧ sent = sentFor cfg hist ∧ AnyEnd test c hist out
  | .stuck => w.number = hist.length ∧ w.file = fileFor record name i hist ∧ sent = sentFor cfg hist ∧
      ∃ net s, anyRun net test ⟨c, [], []⟩ (.hang, s) ∧ out = chunks hist ++ [s.out]

/-- The invariant of a worker. -/
def AnyOk (cfg : Config) (i : Nat) (record : Bool) (name : Str) (test : List (Expr F)) (base : Context F) (w : Worker F) (out : List Str)
    (sent : List (List Record)) : Prop :=
  w.name = name ∧ w.test = test ∧ ∃ hist c, AnyIterations test base hist c ∧ AnyAt cfg i record name test w out sent hist c

theorem any_init (cfg : Config) (i : Nat) (record : Bool) (name : Str) (test : List (Expr F)) (base : Context F) :
    AnyOk cfg i record name test base.clone (Worker.init record base name test) [] [] := by
  refine ⟨rfl, rfl, [], base.clone, .nil, rfl, rfl, Nat.zero_le _, ?_, rfl, by unfold sentFor; cases cfg.stat <;> rfl⟩
  simp only [Worker.init, fileFor, iterationFile, writerFile]
  cases record <;> simp

theorem any_step {cfg : Config} (hn : cfg.named = true) {i : Nat} {record : Bool} {name : Str} {test : List (Expr F)} {base : Context F} {w w' : Worker F}
    {out : List Str} {sent : List (List Record)} {cont : Bool} {net : Net} {e : Effect} (h : AnyOk cfg i record name test base w out sent) (hs : w.anyStep cfg cont i net (w', e)) :
    AnyOk cfg i record name test base w' (out ++ e.out) (sent ++ e.sent) := by
  obtain ⟨hname, htest, hist, c, hit, ha⟩ := h
  unfold AnyAt at ha
  unfold Worker.anyStep at hs
  cases hpc : w.pc with
  | head =>
    rw [hpc, if_neg (by simp)] at hs
    unfold Worker.step at hs
    rw [hpc] at ha hs
    obtain ⟨a2, a3, a4, a5, a6, a7⟩ := ha
    simp only [hn, if_true] at hs
    split at hs
    · rename_i hc
      cases hs
      simp only [Bool.and_eq_true, decide_eq_true_eq] at hc
      exact ⟨hname, htest, hist, c, hit, a2, a3, hc.2, a5, by simpa using a6, by simpa using a7⟩
    · cases hs
      exact ⟨hname, htest, hist, c, hit, a3, a4, a5, by simpa using a7, .inl (by simpa using a6)⟩
  | eval =>
    rw [hpc, if_pos rfl] at hs
    rw [hpc] at ha
    obtain ⟨a2, a3, a4, a5, a6, a7⟩ := ha
    obtain ⟨⟨r, s⟩, hr, hs⟩ := hs
    rw [htest, a2] at hr
    cases r with
    | ok v =>
      cases hs
      refine ⟨hname, htest, _, _, .snoc hit hr, hist, s.out, [], rfl, rfl, rfl, a3, a4, a5, ?_, by simpa using a7⟩
      simp [a6, recordLines]
    | err er =>
      simp only [Worker.evaluated, hn, if_true] at hs
      cases hs
      exact ⟨hname, htest, _, _, hit, a3, Nat.le_of_lt a4, a5, by simpa using a7, .inr ⟨net, s, .inl ⟨er, hr, by rw [a6]⟩⟩⟩
    | panic =>
      cases hs
      exact ⟨hname, htest, _, _, hit, a3, Nat.le_of_lt a4, a5, by simpa using a7, .inr ⟨net, s, .inr ⟨hr, by rw [a6]⟩⟩⟩
    | hang =>
      cases hs
      exact ⟨hname, htest, _, _, hit, a3, a5, by simpa using a7, net, s, hr, by rw [a6]⟩
  | print rs left =>
    rw [hpc, if_neg (by simp)] at hs
    unfold Worker.step at hs
    rw [hpc] at ha hs
    obtain ⟨h0, o, pre, b1, b2, a2, a3, a4, a5, a6, a7⟩ := ha
    cases left with
    | nil =>
      cases hs
      refine ⟨hname, htest, hist, c, hit, h0, o, b1, a2, a3, a4, a5, ?_, by simpa using a7⟩
      rw [List.append_nil] at b2
      rw [List.append_nil, a6, b1, chunks_snoc, b2]
    | cons r left =>
      cases hs
      refine ⟨hname, htest, hist, c, hit, h0, o, pre ++ [r], b1, by simpa using b2, a2, a3, a4, a5, ?_, by simpa using a7⟩
      rw [a6]
      simp [recordLines]
  | write rs =>
    rw [hpc, if_neg (by simp)] at hs
    unfold Worker.step at hs
    rw [hpc] at ha hs
    obtain ⟨h0, o, b1, a2, a3, a4, a5, a6, a7⟩ := ha
    simp only [hn, if_true] at hs
    cases hs
    refine ⟨hname, htest, hist, c, hit, h0, o, b1, a2, a3, a4, ?_, by simpa using a6, by simpa using a7⟩
    simp only [a5, fileFor, b1, a3, hname]
    cases record
    · rfl
    · simp [iterationFile_snoc]
  | send rs =>
    rw [hpc, if_neg (by simp)] at hs
    unfold Worker.step at hs
    rw [hpc] at ha hs
    obtain ⟨h0, o, b1, a2, a3, a4, a5, a6, a7⟩ := ha
    cases hs
    refine ⟨hname, htest, hist, c, hit, a2, ?_, a4, a5, by simpa using a6, ?_⟩
    · simp [b1, a3]
    · rw [a7, b1, sentFor_snoc]
  | done => rw [hpc, if_neg (by simp)] at hs; unfold Worker.step at hs; rw [hpc] at hs; cases hs
  | stuck => rw [hpc, if_neg (by simp)] at hs; unfold Worker.step at hs; rw [hpc] at hs; cases hs

theorem outOf_append (i : Option Nat) (a b : List (Option Nat × Str)) : outOf i (a ++ b) = outOf i a ++ outOf i b := by
  simp [outOf]

theorem outOf_own (i : Nat) (l : List Str) : outOf (some i) (l.map fun t => (some i, t)) = l := by
  induction l with
  | nil => rfl
  | cons a l ih => simp only [outOf, List.map_cons, List.filter_cons, beq_self_eq_true, if_true] at ih ⊢; rw [ih]

theorem outOf_others {i j : Nat} (h : j ≠ i) (l : List Str) : outOf (some i) (l.map fun t => (some j, t)) = [] := by
  induction l with
  | nil => rfl
  | cons a l ih => simpa [outOf, h] using ih

theorem flatMap_more {α : Type} (S : Nat → List α) (i : Nat) (l : List α) : ∀ t, i < t →
    ((List.range t).flatMap fun k => if k = i then S k ++ l else S k).Perm ((List.range t).flatMap S ++ l)
  | 0, h => absurd h (Nat.not_lt_zero _)
  | t + 1, h => by
    rw [List.range_succ, List.flatMap_append, List.flatMap_append]
    by_cases hi : i = t
    · subst hi
      have : ((List.range i).flatMap fun k => if k = i then S k ++ l else S k) = (List.range i).flatMap S := by
        rw [List.flatMap_def, List.flatMap_def]
        congr 1
        refine List.map_congr_left fun k hk => ?_
        rw [if_neg (Nat.ne_of_lt (List.mem_range.1 hk))]
      rw [this]
      simp
    · have ih := flatMap_more S i l t (by omega)
      have e : ([t].flatMap fun k => if k = i then S k ++ l else S k) = [t].flatMap S := by simp [Ne.symm hi]
      rw [e]
      refine (ih.append_right _).trans ?_
      rw [List.append_assoc, List.append_assoc]
      exact List.perm_append_comm.append_left _

/-- Every worker of a run of a named test keeps the invariant, and the statistics have counted, or find in the channel, what the workers sent. -/
theorem any_workers {record stat : Bool} {base : Context F} {name : Str} {test : List (Expr F)} {t n : Nat} {l : List RunStep} {r : Run F}
    (h : Run.AnySteps ⟨true, n, stat⟩ (Run.init (List.replicate t (fresh record base name test))) l r) :
    ∃ (S : Nat → List (List Record)) (received : List (List Record)), r.workers.length = t ∧ r.stats = received.foldl addBatch [] ∧
      (received ++ r.channel).Perm ((List.range t).flatMap S) ∧
      ∀ i, i < t → ∃ w, r.workers[i]? = some w ∧ AnyOk ⟨true, n, stat⟩ i record name test base.clone w (outOf (some i) r.out) (S i) := by
  generalize hr : Run.init (List.replicate t (fresh record base name test)) = r0 at h
  induction h with
  | nil =>
    subst hr
    exact ⟨fun _ => [], [], by simp [Run.init], rfl, by simp [Run.init], fun i hi => ⟨_, by simp [Run.init, hi], any_init _ i record name test base⟩⟩
  | @snoc q p l s _ hs ih =>
    obtain ⟨S, received, hlen, hst, hperm, ih⟩ := ih
    cases s with
    | work j net =>
      obtain ⟨w', x, hw', hx, rfl⟩ := hs
      have hlt : j < q.workers.length := (List.getElem?_eq_some_iff.1 hw').1
      refine ⟨fun k => if k = j then S k ++ x.2.sent else S k, received, by simp [hlen], hst, ?_, fun i hi => ?_⟩
      · dsimp only
        rw [← List.append_assoc]
        exact (hperm.append_right _).trans (flatMap_more S j x.2.sent t (hlen ▸ hlt)).symm
      · obtain ⟨w, hw, ho⟩ := ih i hi
        dsimp only
        rw [outOf_append]
        by_cases hij : j = i
        · subst hij
          rw [hw] at hw'
          cases hw'
          refine ⟨x.1, by simp [hlt], ?_⟩
          rw [outOf_own, if_pos rfl]
          exact any_step rfl ho hx
        · refine ⟨w, by rw [List.getElem?_set_ne hij]; exact hw, ?_⟩
          rw [outOf_others hij, List.append_nil, if_neg (Ne.symm hij)]
          exact ho
    | stop => cases hs; exact ⟨S, received, hlen, hst, hperm, ih⟩
    | drop =>
      simp only [Run.anyStep, Run.step] at hs
      split at hs
      · cases hs; exact ⟨S, received, hlen, hst, hperm, ih⟩
      · cases hs
    | collect =>
      simp only [Run.anyStep, Run.step] at hs
      split at hs
      · cases hs
      · split at hs
        · split at hs
          · next b ch hch =>
            cases hs
            refine ⟨S, received ++ [b], hlen, ?_, ?_, ih⟩
            · dsimp only
              rw [List.foldl_append, ← hst]
              rfl
            · rw [hch] at hperm
              simpa using hperm
          · split at hs
            · cases hs
              refine ⟨S, received, hlen, hst, hperm, fun i hi => ?_⟩
              obtain ⟨w, hw, ho⟩ := ih i hi
              refine ⟨w, hw, ?_⟩
              dsimp only
              rw [outOf_append]
              simpa [outOf] using ho
            · cases hs
        · cases hs; exact ⟨S, received, hlen, hst, hperm, ih⟩

/-- C135: in a run of a named test, whatever the order of hash maps at every moment, a thread that has ended has printed exactly what its iterations printed and
recorded, its record file consists of exactly these records, and there are at most as many iterations as it was to make. With `--stat`, the statistics have
counted, or still find in the channel, exactly the records of all iterations, each once. -/
theorem c135_named {record stat : Bool} {base : Context F} {name : Str} {test : List (Expr F)} {t n : Nat} {l : List RunStep} {r : Run F}
    (h : Run.AnySteps ⟨true, n, stat⟩ (Run.init (List.replicate t (fresh record base name test))) l r) (hd : r.workersDone = true) :
    ∃ (hists : Nat → List (Str × List Record)) (received : List (List Record)), r.workers.length = t ∧
      (∀ i, i < t → ∃ w c, r.workers[i]? = some w ∧ AnyIterations test base.clone (hists i) c ∧ (hists i).length ≤ n ∧ w.number = (hists i).length ∧
        w.file = (if record then some (iterationFile name i (hists i)) else none) ∧ AnyEnd test c (hists i) (outOf (some i) r.out)) ∧
      r.stats = received.foldl addBatch [] ∧
      (stat = true → (received ++ r.channel).Perm ((List.range t).flatMap fun i => (hists i).map Prod.snd)) := by
  obtain ⟨S, received, hlen, hst, hperm, hw⟩ := any_workers h
  have key : ∀ i, ∃ hist, i < t → ∃ w c, r.workers[i]? = some w ∧ AnyIterations test base.clone hist c ∧ hist.length ≤ n ∧ w.number = hist.length ∧
      w.file = (if record then some (iterationFile name i hist) else none) ∧ AnyEnd test c hist (outOf (some i) r.out) ∧ S i = sentFor ⟨true, n, stat⟩ hist := by
    intro i
    by_cases hi : i < t
    · obtain ⟨w, hw, _, _, hist, c, hit, ha⟩ := hw i hi
      refine ⟨hist, fun _ => ⟨w, c, hw, hit, ?_⟩⟩
      have hpc : w.pc = .done := by
        have := List.all_eq_true.1 hd w (List.mem_of_getElem? hw)
        simpa using this
      unfold AnyAt at ha
      rw [hpc] at ha
      exact ⟨ha.1 ▸ ha.2.1, ha.1, ha.2.2.1, ha.2.2.2.2, ha.2.2.2.1⟩
    · exact ⟨[], fun h => absurd h hi⟩
  refine ⟨fun i => (key i).choose, received, hlen, fun i hi => ?_, hst, fun hs => ?_⟩
  · obtain ⟨w, c, h1, h2, h3, h4, h5, h6, _⟩ := (key i).choose_spec hi
    exact ⟨w, c, h1, h2, h3, h4, h5, h6⟩
  · subst hs
    have : (List.range t).flatMap S = (List.range t).flatMap fun i => ((key i).choose).map Prod.snd := by
      rw [List.flatMap_def, List.flatMap_def]
      congr 1
      refine List.map_congr_left fun i hi => ?_
      obtain ⟨w, c, _, _, _, _, _, _, h7⟩ := (key i).choose_spec (List.mem_range.1 hi)
      exact h7.trans rfl
    rw [← this]
    exact hperm

/-! ## All tests -/

/-- The state of a worker that runs its test once. -/
def OnceAt (i : Nat) (record : Bool) (name : Str) (test : List (Expr F)) (base : Context F) (w : Worker F) (out : List Str) : Prop :=
  match w.pc with
  | .head | .eval => w.ctx = base ∧ w.number = 0 ∧ w.file = fileFor record name i [] ∧ out = []
  | .print rs left => ∃ net r s said pre, anyRun net test ⟨base, [], []⟩ (r, s) ∧ Said r s said ∧ rs = s.ctx.records ∧ rs = pre ++ left ∧ w.number = 0 ∧
      w.file = fileFor record name i [] ∧ out = said ++ recordLines pre
  | .write rs => ∃ net r s said, anyRun net test ⟨base, [], []⟩ (r, s) ∧ Said r s said ∧ rs = s.ctx.records ∧ w.number = 0 ∧
      w.file = fileFor record name i [] ∧ out = said ++ recordLines rs
  | .send _ => False
  | .done => OnceEnd test base name i record w.file out
  | .stuck => ∃ net s, anyRun net test ⟨base, [], []⟩ (.hang, s) ∧ out = [s.out]

theorem once_step {cfg : Config} (hn : cfg.named = false) {i : Nat} {record : Bool} {name : Str} {test : List (Expr F)} {base : Context F} {w w' : Worker F}
    {out : List Str} {cont : Bool} {net : Net} {e : Effect} (h : w.name = name ∧ w.test = test ∧ OnceAt i record name test base w out)
    (hs : w.anyStep cfg cont i net (w', e)) : w'.name = name ∧ w'.test = test ∧ OnceAt i record name test base w' (out ++ e.out) := by
  obtain ⟨hname, htest, ha⟩ := h
  unfold OnceAt at ha
  unfold Worker.anyStep at hs
  cases hpc : w.pc with
  | head =>
    rw [hpc, if_neg (by simp)] at hs
    unfold Worker.step at hs
    rw [hpc] at ha hs
    simp only [hn, Bool.false_eq_true, if_false] at hs
    cases hs
    exact ⟨hname, htest, ha.1, ha.2.1, ha.2.2.1, by simpa using ha.2.2.2⟩
  | eval =>
    rw [hpc, if_pos rfl] at hs
    rw [hpc] at ha
    obtain ⟨a1, a2, a3, a4⟩ := ha
    obtain ⟨⟨r, s⟩, hr, hs⟩ := hs
    rw [htest, a1] at hr
    subst a4
    cases r with
    | ok v =>
      cases hs
      exact ⟨hname, htest, net, _, s, [s.out], [], hr, .inl ⟨v, rfl, rfl⟩, rfl, rfl, a2, a3, rfl⟩
    | err er =>
      simp only [Worker.evaluated, hn, Bool.false_eq_true, if_false] at hs
      cases hs
      exact ⟨hname, htest, net, _, s, [s.out, er ++ c!"\n"], [], hr, .inr ⟨er, rfl, rfl⟩, rfl, rfl, a2, a3, rfl⟩
    | panic =>
      cases hs
      exact ⟨hname, htest, net, s, .inr ⟨hr, rfl, a3⟩⟩
    | hang =>
      cases hs
      exact ⟨hname, htest, net, s, hr, rfl⟩
  | print rs left =>
    rw [hpc, if_neg (by simp)] at hs
    unfold Worker.step at hs
    rw [hpc] at ha hs
    obtain ⟨net', r, s, said, pre, b1, b2, b3, b4, b5, b6, b7⟩ := ha
    cases left with
    | nil =>
      cases hs
      rw [List.append_nil] at b4
      exact ⟨hname, htest, net', r, s, said, b1, b2, b3, b5, b6, by rw [List.append_nil, b7, b4]⟩
    | cons q left =>
      cases hs
      refine ⟨hname, htest, net', r, s, said, pre ++ [q], b1, b2, b3, by simpa using b4, b5, b6, ?_⟩
      rw [b7]
      simp [recordLines]
  | write rs =>
    rw [hpc, if_neg (by simp)] at hs
    unfold Worker.step at hs
    rw [hpc] at ha hs
    obtain ⟨net', r, s, said, b1, b2, b3, b5, b6, b7⟩ := ha
    simp only [hn, Bool.false_eq_true, if_false] at hs
    cases hs
    refine ⟨hname, htest, net', s, .inl ⟨r, said, b1, b2, by simp [b7, b3, recordLines], ?_⟩⟩
    simp only [b6, fileFor, b5, hname]
    cases record
    · rfl
    · have := iterationFile_snoc name i [] s.out rs
      simp only [if_true, Option.map_some, Option.some.injEq]
      rw [← b3]
      exact this.symm
  | send rs => rw [hpc] at ha; exact ha.elim
  | done => rw [hpc, if_neg (by simp)] at hs; unfold Worker.step at hs; rw [hpc] at hs; cases hs
  | stuck => rw [hpc, if_neg (by simp)] at hs; unfold Worker.step at hs; rw [hpc] at hs; cases hs

/-- C135: in a run of all tests, whatever the order of hash maps at every moment, a thread that has ended has printed exactly what its test printed and recorded,
and its record file consists of exactly these records. -/
theorem c135_all {record stat : Bool} {base : Context F} {tests : List (Str × List (Expr F))} {l : List RunStep} {r : Run F}
    (h : Run.AnySteps ⟨false, 1, stat⟩ (Run.init (tests.map fun p => fresh record base p.1 p.2)) l r) (i : Nat) (name : Str) (test : List (Expr F))
    (hi : tests[i]? = some (name, test)) :
    ∃ w, r.workers[i]? = some w ∧ (w.pc = .done → OnceEnd test base.clone name i record w.file (outOf (some i) r.out)) := by
  have key : ∃ w, r.workers[i]? = some w ∧ w.name = name ∧ w.test = test ∧ OnceAt i record name test base.clone w (outOf (some i) r.out) := by
    generalize hr : Run.init (tests.map fun p => fresh record base p.1 p.2) = r0 at h
    induction h with
    | nil =>
      subst hr
      refine ⟨fresh record base name test, by simp [Run.init, hi], rfl, rfl, rfl, rfl, ?_, rfl⟩
      simp only [Worker.init, fileFor, iterationFile, writerFile]
      cases record <;> simp
    | @snoc q p l s _ hs ih =>
      obtain ⟨w, hw, ho⟩ := ih
      cases s with
      | work j net =>
        obtain ⟨w', x, hw', hx, rfl⟩ := hs
        have hlt : j < q.workers.length := (List.getElem?_eq_some_iff.1 hw').1
        dsimp only
        rw [outOf_append]
        by_cases hij : j = i
        · subst hij
          rw [hw] at hw'
          cases hw'
          refine ⟨x.1, by simp [hlt], ?_⟩
          rw [outOf_own]
          exact once_step rfl ho hx
        · refine ⟨w, by rw [List.getElem?_set_ne hij]; exact hw, ?_⟩
          rw [outOf_others hij, List.append_nil]
          exact ho
      | stop => cases hs; exact ⟨w, hw, ho⟩
      | drop =>
        simp only [Run.anyStep, Run.step] at hs
        split at hs
        · cases hs; exact ⟨w, hw, ho⟩
        · cases hs
      | collect =>
        simp only [Run.anyStep, Run.step] at hs
        split at hs
        · cases hs
        · split at hs
          · split at hs
            · cases hs; exact ⟨w, hw, ho⟩
            · split at hs
              · cases hs
                refine ⟨w, hw, ?_⟩
                dsimp only
                rw [outOf_append]
                simpa [outOf] using ho
              · cases hs
          · cases hs; exact ⟨w, hw, ho⟩
  obtain ⟨w, hw, _, _, ho⟩ := key
  refine ⟨w, hw, fun hd => ?_⟩
  unfold OnceAt at ho
  rw [hd] at ho
  exact ho

/-! ## Where there is only one run -/

theorem evaluated_test (cfg : Config) (w : Worker F) (x : Res (Value F) × St F) : (w.evaluated cfg x).1.test = w.test := by
  obtain ⟨r, s⟩ := x
  cases r with
  | err e => simp only [Worker.evaluated]; split <;> rfl
  | _ => rfl

theorem workerStep_test {cfg : Config} {cont : Bool} {i : Nat} {net : Net} {w : Worker F} {x : Worker F × Effect} (h : w.step cfg cont i net = some x) :
    x.1.test = w.test := by
  cases hp : w.pc with
  | eval => rw [step_evaluated cfg cont i net w hp] at h; cases h; exact evaluated_test cfg w _
  | head =>
    unfold Worker.step at h
    rw [hp] at h
    dsimp only at h
    split at h
    · split at h <;> (cases h; rfl)
    · cases h; rfl
  | print rs left => unfold Worker.step at h; rw [hp] at h; cases left <;> (cases h; rfl)
  | write rs =>
    unfold Worker.step at h
    rw [hp] at h
    dsimp only at h
    split at h <;> (cases h; rfl)
  | send rs => unfold Worker.step at h; rw [hp] at h; cases h; rfl
  | done => unfold Worker.step at h; rw [hp] at h; cases h
  | stuck => unfold Worker.step at h; rw [hp] at h; cases h

theorem runSteps_last (cfg : Config) (s : RunStep) : ∀ (l : List RunStep) (r : Run F), r.run cfg (l ++ [s]) = (r.run cfg l).bind fun q => q.step cfg s
  | [], r => by
    show (r.step cfg s).bind (fun q => some q) = r.step cfg s
    cases r.step cfg s <;> rfl
  | a :: l, r => by
    show (r.step cfg a).bind (fun q => q.run cfg (l ++ [s])) = ((r.step cfg a).bind fun q => q.run cfg l).bind fun q => q.step cfg s
    cases r.step cfg a with
    | none => rfl
    | some q => exact runSteps_last cfg s l q

/-- C135: if no evaluation of the tests turns a map with two or more entries into text, there are no other runs than those of the model with one order. -/
theorem c135_only (hi : Visits (Rt.order F)) (cfg : Config) {r : Run F} (h : ∀ w ∈ r.workers, ShowsOneWay w.test) (sched : List RunStep) (q : Run F) :
    Run.AnySteps cfg r sched q ↔ r.run cfg sched = some q := by
  refine ⟨fun ha => ?_, c135_allowed hi cfg sched⟩
  have key : r.run cfg sched = some q ∧ ∀ w ∈ q.workers, ShowsOneWay w.test := by
    induction ha with
    | nil => exact ⟨rfl, h⟩
    | @snoc q p l s _ hs ih =>
      obtain ⟨h1, h2⟩ := ih
      rw [runSteps_last, h1]
      show q.step cfg s = some p ∧ _
      cases s with
      | work j net =>
        obtain ⟨w, x, hw, hx, rfl⟩ := hs
        have hm := List.mem_of_getElem? hw
        have hstep : w.step cfg q.continuous j net = some x := by
          unfold Worker.anyStep at hx
          split at hx
          · next hp =>
            obtain ⟨y, hy, rfl⟩ := hx
            rw [step_evaluated cfg _ j net w hp, (c126_block hi net w.test _ (h2 w hm net w.ctx) y).1 hy]
          · exact hx
        refine ⟨?_, fun v hv => ?_⟩
        · simp only [Run.step, hw, hstep]
        · rcases List.mem_or_eq_of_mem_set hv with hv | rfl
          · exact h2 v hv
          · rw [workerStep_test hstep]; exact h2 w hm
      | stop => cases hs; exact ⟨rfl, h2⟩
      | drop =>
        refine ⟨hs, ?_⟩
        simp only [Run.anyStep, Run.step] at hs
        split at hs
        · cases hs; exact h2
        · cases hs
      | collect =>
        refine ⟨hs, ?_⟩
        simp only [Run.anyStep, Run.step] at hs
        split at hs
        · cases hs
        · split at hs
          · split at hs
            · cases hs; exact h2
            · split at hs
              · cases hs; exact h2
              · cases hs
          · cases hs; exact h2
  exact key.1

/-! ## What the iterations are -/

/-- C135: the records of an iteration are, one for one and in order, those of the messages it sent, which are templates of the requests filled in. -/
theorem c135_records {test : List (Expr F)} {base : Context F} {hist : List (Str × List Record)} {c : Context F} (h : AnyIterations test base hist c)
    (hb : base.records = []) : c.records = [] ∧ c.requests = base.requests ∧
      ∀ p ∈ hist, ∃ net msgs, AnyRecordsOf net base.requests [] msgs p.2 ∧ p.2.length ≤ callsList test := by
  induction h with
  | nil => exact ⟨hb, rfl, fun _ h => nomatch h⟩
  | @snoc hist c net v s _ hr ih =>
    obtain ⟨h1, h2, h3⟩ := ih
    obtain ⟨msgs, recs, lost, e1, e2, e3, _, e5⟩ := c127_records hr
    obtain ⟨more, m1, m2⟩ := c127_bounded hr
    have hl := e5 (.inl ⟨v, rfl⟩)
    dsimp only at e1 e2 e3 m1
    rw [h1, List.nil_append] at e2
    rw [hl, List.append_nil, List.nil_append] at e1
    rw [List.nil_append, e1] at m1
    refine ⟨rfl, (c127_frame hr).2.trans h2, fun p hp => ?_⟩
    rcases List.mem_append.1 hp with hp | hp
    · exact h3 p hp
    · cases List.mem_singleton.1 hp
      rw [h2] at e3
      refine ⟨net, msgs, e2 ▸ e3, ?_⟩
      have hlen : ∀ {b ms rs}, AnyRecordsOf net base.requests b ms rs → rs.length = ms.length := by
        intro b ms rs h
        induction h with
        | nil => rfl
        | cons _ _ ih => simp [ih]
      dsimp only
      rw [e2, hlen e3, m1]
      exact m2

/-- C135: a test that keeps the kinds of its variables and passes the check of C130 never ends a thread with an error, whatever the order of hash maps: the
thread has made its iterations, or a panic ended it. -/
theorem c135_no_error {test : List (Expr F)} {base : Context F} {g : Env} {t : Ty} (hm : Meets g (⟨base, [], []⟩ : St F))
    (ht : typeBlock base.requests test .null g = some (t, g)) {hist : List (Str × List Record)} {c : Context F} (h : AnyIterations test base hist c)
    {out : List Str} (he : AnyEnd test c hist out) :
    out = chunks hist ∨ ∃ net s, anyRun net test ⟨c, [], []⟩ (.panic, s) ∧ out = chunks hist ++ [s.out] := by
  have key : c.requests = base.requests ∧ Meets g (⟨c, [], []⟩ : St F) := by
    clear he
    induction h with
    | nil => exact ⟨rfl, hm⟩
    | @snoc hist c net v s _ hr ih =>
      obtain ⟨h2, h3⟩ := ih
      have hx := (c130_any h3 (by rw [show (⟨c, [], []⟩ : St F).ctx.requests = _ from h2]; exact ht) hr).2 v rfl
      exact ⟨(c127_frame hr).2.trans h2, hx.2⟩
  rcases he with h | ⟨net, s, ⟨e, hr, _⟩ | ⟨hr, ho⟩⟩
  · exact .inl h
  · exact absurd rfl ((c130_any key.2 (by rw [show (⟨c, [], []⟩ : St F).ctx.requests = _ from key.1]; exact ht) hr).1 e)
  · exact .inr ⟨net, s, hr, ho⟩

/-! ## Examples -/

/-- A test whose error shows a number and a text, and no map. -/
example : ShowsOneWay (F := F) [.letE c!"x" (.int 1), .binary ⟨.Sub, c!"-"⟩ (.int 1) (.str c!"a")] := by
  intro net c v hv
  have e : shownRun (F := F) net [.letE c!"x" (.int 1), .binary ⟨.Sub, c!"-"⟩ (.int 1) (.str c!"a")] ⟨c, [], []⟩ = [.int 1, .str c!"a"] := rfl
  rw [e] at hv
  rcases List.mem_cons.1 hv with rfl | hv
  · exact .int 1
  · cases List.mem_singleton.1 hv
    exact .str _

/-- A test that keeps the kinds of its variables. -/
example : typeBlock [] ([printsMap, printsMap] : List (Expr F)) .null (fun _ => none) = some (.null, fun _ => none) := rfl

/-- A run of a named test that is over: one thread, one iteration. -/
example (hi : Visits (Rt.order F)) (net : Net) : ∃ r : Run F, Run.AnySteps ⟨true, 1, true⟩ (Run.init (List.replicate 1 (fresh false Context.new c!"t" [.int 1])))
    (List.replicate 6 (.work 0 net)) r ∧ r.workersDone = true :=
  ⟨_, c135_allowed hi _ _ rfl, rfl⟩

/-- A run of all tests that is over. -/
example (hi : Visits (Rt.order F)) (net : Net) : ∃ r : Run F, Run.AnySteps ⟨false, 1, true⟩ (Run.init ([(c!"t", [.int 1])].map fun p => fresh false Context.new p.1 p.2))
    (List.replicate 4 (.work 0 net)) r ∧ r.workersDone = true :=
  ⟨_, c135_allowed hi _ _ rfl, rfl⟩

end Am
