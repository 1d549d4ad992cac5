import Verif.Proofs.Silent
import Verif.Props.Builds
import Verif.Props.Running
/-! # C92: requests that are never answered -/
set_option linter.unusedSimpArgs false
set_option linter.unusedSectionVars false
namespace Am
open Spec
variable {F : Type} [Rt F]

/-- C92: a block of expressions does what it does when every request is answered, if every request that it then sends is answered; otherwise it waits for ever
for the first of them that is not, and what it has sent and printed until then is sent and printed in the other case as well. -/
theorem c92_block (quiet : List Str → Str → Bool) (net : Net) (es : List (Expr F)) (s : St F) (hs : ¬ Unanswered quiet s.sent) :
    (¬ Unanswered quiet (runBlock net es s).2.sent → runBlockQuiet quiet net es s = runBlock net es s) ∧
    (Unanswered quiet (runBlock net es s).2.sent → (runBlockQuiet quiet net es s).1 = .hang ∧ RunsOn (runBlockQuiet quiet net es s).2 (runBlock net es s).2 ∧
      ∃ before m, (runBlockQuiet quiet net es s).2.sent = before ++ [m] ∧ quiet before m = true ∧ ¬ Unanswered quiet before) := by
  rcases (waits_runBlock (F := F) (quiet := quiet) net es).2 s hs with ⟨h1, h2⟩ | ⟨h1, h2, h3⟩
  · exact ⟨fun _ => h1, fun h => absurd h h2⟩
  · refine ⟨fun h => absurd ?_ h, fun _ => ⟨h1, behind_runsOn h2, h3⟩⟩
    obtain ⟨before, m, k1, k2, _⟩ := h3
    obtain ⟨t, ht⟩ := h2.1
    exact ⟨before, m, t, by rw [← ht, k1]; simp, k2⟩

theorem stepQuiet_cases (quiet : List Str → Str → Bool) (cfg : Config) (cont : Bool) (i : Nat) (net : Net) (w : Worker F) :
    w.stepQuiet quiet cfg cont i net = w.step cfg cont i net ∨
    (w.pc = .eval ∧ ∃ ctx t, w.stepQuiet quiet cfg cont i net = some ({ w with pc := .stuck, ctx }, ⟨[t], []⟩)) := by
  cases hpc : w.pc with
  | eval =>
    have hq : ¬ Unanswered quiet (⟨w.ctx, [], []⟩ : St F).sent := by rintro ⟨b, m, a, h, _⟩; simp at h
    rcases (waits_runBlock (F := F) (quiet := quiet) net w.test).2 ⟨w.ctx, [], []⟩ hq with ⟨h1, _⟩ | ⟨h1, _, _⟩
    · left
      unfold Worker.stepQuiet Worker.step
      rw [hpc]
      dsimp only
      rw [h1]
      rfl
    · right
      refine ⟨rfl, ?_⟩
      unfold Worker.stepQuiet
      rw [hpc]
      dsimp only
      rcases hr : runBlockQuiet quiet net w.test ⟨w.ctx, [], []⟩ with ⟨r, s⟩
      rw [hr] at h1
      cases h1
      exact ⟨s.ctx, s.out, rfl⟩
  | _ => left; unfold Worker.stepQuiet; rw [hpc]

theorem outOf_worker (i : Nat) (e : List Str) (out : List (Option Nat × Str)) : outOf (some i) (out ++ e.map fun t => (some i, t)) = outOf (some i) out ++ e := by
  unfold outOf
  rw [List.filter_append, List.map_append]
  congr 1
  rw [List.filter_eq_self.2 (by intro p hp; obtain ⟨t, _, rfl⟩ := List.mem_map.1 hp; simp), List.map_map]
  exact List.map_id' e

theorem outOf_other {i j : Nat} (h : j ≠ i) (e : List Str) (out : List (Option Nat × Str)) :
    outOf (some j) (out ++ e.map fun t => (some i, t)) = outOf (some j) out := by
  unfold outOf
  have e0 : (e.map fun t => (some i, t)).filter (fun p => p.1 == some j) = [] := List.filter_eq_nil_iff.2 fun p hp => by
    obtain ⟨t, _, rfl⟩ := List.mem_map.1 hp
    simp only [beq_iff_eq, Option.some.injEq]
    exact fun h' => h h'.symm
  rw [List.filter_append, List.map_append, e0, List.map_nil, List.append_nil]

theorem waitsOrSame_done {w w' : Worker F} (h : WaitsOrSame w w') : (w.pc == .done) = (w'.pc == .done) := by
  rcases h with rfl | ⟨h1, ctx, rfl⟩
  · rfl
  · rw [h1]; rfl

theorem onlyWaits_done {r r' : Run F} (h : OnlyWaits r r') : r.workersDone = r'.workersDone := by
  obtain ⟨⟨h1, h2⟩, _⟩ := h
  unfold Run.workersDone
  apply Bool.eq_iff_iff.2
  simp only [List.all_eq_true]
  constructor
  · intro hd w' hw
    obtain ⟨i, hi⟩ := List.mem_iff_getElem?.1 hw
    have hlt : i < r.workers.length := by rw [h1]; exact (List.getElem?_eq_some_iff.1 hi).1
    rw [← waitsOrSame_done (h2 i _ w' (List.getElem?_eq_getElem hlt) hi)]
    exact hd _ (List.getElem_mem hlt)
  · intro hd w hw
    obtain ⟨i, hi⟩ := List.mem_iff_getElem?.1 hw
    have hlt : i < r'.workers.length := by rw [← h1]; exact (List.getElem?_eq_some_iff.1 hi).1
    rw [waitsOrSame_done (h2 i w _ hi (List.getElem?_eq_getElem hlt))]
    exact hd _ (List.getElem_mem hlt)

theorem OnlyWaits.refl (r : Run F) : OnlyWaits r r where
  workers := ⟨rfl, fun i w w' h h' => .inl (by rw [h] at h'; exact Option.some.inj h')⟩
  continuous := rfl
  channel := rfl
  mainSender := rfl
  collector := rfl
  stats := rfl
  statistics := rfl
  out _ _ _ _ := rfl
  outWaiting i w w' h h' hn := absurd (by rw [h] at h'; exact Option.some.inj h') hn

theorem onlyWaits_step {quiet : List Str → Str → Bool} {cfg : Config} {r r0 r1 : Run F} {s : RunStep} (h : OnlyWaits r r0)
    (hs : r.stepQuiet quiet cfg s = some r1) : (∃ r2, r0.step cfg s = some r2 ∧ OnlyWaits r1 r2) ∨ OnlyWaits r1 r0 := by
  cases s with
  | work i net =>
    simp only [Run.stepQuiet] at hs
    cases hw : r.workers[i]? with
    | none => rw [hw] at hs; cases hs
    | some w =>
      rw [hw] at hs
      dsimp only at hs
      have hlt : i < r.workers.length := (List.getElem?_eq_some_iff.1 hw).1
      have hlt0 : i < r0.workers.length := by rw [← h.workers.1]; exact hlt
      obtain ⟨w0, hw0⟩ : ∃ w0, r0.workers[i]? = some w0 := ⟨_, List.getElem?_eq_getElem hlt0⟩
      rcases h.workers.2 i w w0 hw hw0 with rfl | ⟨_, ctx, rfl⟩
      · rcases stepQuiet_cases quiet cfg r.continuous i net w with hq | ⟨hpc, ctx, t, hq⟩
        · left
          rw [hq] at hs
          cases hst : w.step cfg r.continuous i net with
          | none => rw [hst] at hs; cases hs
          | some p =>
            obtain ⟨w1, e⟩ := p
            rw [hst] at hs
            cases hs
            refine ⟨{ r0 with workers := r0.workers.set i w1, channel := r0.channel ++ e.sent, out := r0.out ++ e.out.map fun t => (some i, t) }, ?_, ?_⟩
            · simp only [Run.step, hw0]
              rw [← h.continuous, hst]
            · refine ⟨⟨by simp [h.workers.1], fun j v v' hv hv' => ?_⟩, h.continuous, by dsimp only; rw [h.channel], h.mainSender, h.collector, h.stats, ?_, fun j v hv hv' => ?_,
                fun j v v' hv hv' hn => ?_⟩
              · dsimp only at hv hv'
                by_cases hj : i = j
                · subst hj
                  rw [List.getElem?_set_self hlt] at hv
                  rw [List.getElem?_set_self hlt0] at hv'
                  cases hv; cases hv'
                  exact .inl rfl
                · rw [List.getElem?_set_ne hj] at hv hv'
                  exact h.workers.2 j v v' hv hv'
              · dsimp only
                rw [outOf_none_worker, outOf_none_worker]
                exact h.statistics
              · dsimp only at hv hv' ⊢
                by_cases hj : i = j
                · subst hj
                  rw [outOf_worker, outOf_worker, h.out i w hw hw0]
                · rw [List.getElem?_set_ne hj] at hv hv'
                  rw [outOf_other (fun h => hj h.symm), outOf_other (fun h => hj h.symm)]
                  exact h.out j v hv hv'
              · dsimp only at hv hv' ⊢
                by_cases hj : i = j
                · subst hj
                  rw [List.getElem?_set_self hlt] at hv
                  rw [List.getElem?_set_self hlt0] at hv'
                  cases hv; cases hv'
                  exact absurd rfl hn
                · rw [List.getElem?_set_ne hj] at hv hv'
                  rw [outOf_other (fun h => hj h.symm), outOf_other (fun h => hj h.symm)]
                  exact h.outWaiting j v v' hv hv' hn
        · right
          rw [hq] at hs
          cases hs
          refine ⟨⟨by simp [h.workers.1], fun j v v' hv hv' => ?_⟩, h.continuous, by dsimp only; rw [h.channel, List.append_nil], h.mainSender, h.collector, h.stats, ?_, fun j v hv hv' => ?_,
            fun j v v' hv hv' hn => ?_⟩
          · dsimp only at hv
            by_cases hj : i = j
            · subst hj
              rw [List.getElem?_set_self hlt] at hv
              rw [hw0] at hv'
              cases hv; cases hv'
              exact .inr ⟨hpc, ctx, rfl⟩
            · rw [List.getElem?_set_ne hj] at hv
              exact h.workers.2 j v v' hv hv'
          · dsimp only
            rw [outOf_none_worker]
            exact h.statistics
          · dsimp only at hv ⊢
            by_cases hj : i = j
            · subst hj
              rw [List.getElem?_set_self hlt] at hv
              rw [hw0] at hv'
              cases hv'
              have hv := congrArg Worker.pc (Option.some.inj hv)
              rw [hpc] at hv
              cases hv
            · rw [List.getElem?_set_ne hj] at hv
              rw [outOf_other (fun h => hj h.symm)]
              exact h.out j v hv hv'
          · dsimp only at hv ⊢
            by_cases hj : i = j
            · subst hj
              rw [outOf_worker, h.out i w hw hw0]
              exact ⟨t, rfl⟩
            · rw [List.getElem?_set_ne hj] at hv
              rw [outOf_other (fun h => hj h.symm)]
              exact h.outWaiting j v v' hv hv' hn
      · exfalso
        cases hs
  | stop =>
    left
    simp only [Run.stepQuiet, Run.step] at hs
    cases hs
    exact ⟨_, rfl, ⟨h.workers, rfl, h.channel, h.mainSender, h.collector, h.stats, h.statistics, h.out, h.outWaiting⟩⟩
  | drop =>
    left
    simp only [Run.stepQuiet, Run.step] at hs ⊢
    rw [h.mainSender] at hs
    by_cases hm : r0.mainSender = true
    · rw [if_pos hm] at hs ⊢
      cases hs
      exact ⟨_, rfl, ⟨h.workers, h.continuous, h.channel, rfl, h.collector, h.stats, h.statistics, h.out, h.outWaiting⟩⟩
    · rw [if_neg hm] at hs
      cases hs
  | collect =>
    left
    have hdisc : r.disconnected cfg = r0.disconnected cfg := by
      unfold Run.disconnected
      rw [h.mainSender, onlyWaits_done h]
    simp only [Run.stepQuiet, Run.step] at hs ⊢
    rw [h.collector, h.channel, hdisc, h.stats] at hs
    cases hc : r0.collector with
    | done => rw [hc] at hs; cases hs
    | running =>
      rw [hc] at hs
      dsimp only at hs ⊢
      by_cases hst : cfg.stat = true
      · rw [if_pos hst] at hs ⊢
        cases hch : r0.channel with
        | cons b q =>
          rw [hch] at hs
          cases hs
          exact ⟨_, rfl, ⟨h.workers, h.continuous, rfl, h.mainSender, rfl, rfl, h.statistics, h.out, h.outWaiting⟩⟩
        | nil =>
          rw [hch] at hs
          dsimp only at hs ⊢
          by_cases hd : r0.disconnected cfg = true
          · rw [if_pos hd] at hs ⊢
            cases hs
            refine ⟨_, rfl, ⟨h.workers, h.continuous, rfl, h.mainSender, rfl, rfl, ?_, fun i w hv hv' => ?_, fun i w w' hv hv' hn => ?_⟩⟩
            · have := h.statistics
              simp only [outOf, List.filter_append, List.map_append] at this ⊢
              rw [this]
            · have := h.out i w hv hv'
              simp only [outOf, List.filter_append, List.map_append] at this ⊢
              rw [this]
            · obtain ⟨t, ht⟩ := h.outWaiting i w w' hv hv' hn
              refine ⟨t, ?_⟩
              simp only [outOf, List.filter_append, List.map_append] at ht ⊢
              rw [ht]
              simp
          · rw [if_neg hd] at hs
            cases hs
      · rw [if_neg hst] at hs ⊢
        cases hs
        exact ⟨_, rfl, ⟨h.workers, h.continuous, rfl, h.mainSender, rfl, rfl, h.statistics, h.out, h.outWaiting⟩⟩

theorem quiet_simulated (cfg : Config) : ∀ (l : List (RunStep × (List Str → Str → Bool))) (r r0 r' : Run F), OnlyWaits r r0 → r.runQuiet cfg l = some r' →
    ∃ l' r0', l'.Sublist (l.map Prod.fst) ∧ r0.run cfg l' = some r0' ∧ OnlyWaits r' r0'
  | [], r, r0, r', h, hr => by
    cases hr
    exact ⟨[], r0, .slnil, rfl, h⟩
  | (s, quiet) :: l, r, r0, r', h, hr => by
    rw [Run.runQuiet, Option.bind_eq_some_iff] at hr
    obtain ⟨r1, h1, h2⟩ := hr
    rcases onlyWaits_step h h1 with ⟨r2, h3, h4⟩ | h4
    · obtain ⟨l', r0', k1, k2, k3⟩ := quiet_simulated cfg l r1 r2 r' h4 h2
      exact ⟨s :: l', r0', k1.cons_cons s, by rw [Run.run, h3]; exact k2, k3⟩
    · obtain ⟨l', r0', k1, k2, k3⟩ := quiet_simulated cfg l r1 r0 r' h4 h2
      exact ⟨l', r0', k1.cons s, k2, k3⟩

/-- C92: what requests without an answer change in a run: the same steps without the evaluations that wait are a run in which every request is answered, and it is
in the same state except that the waiting threads are about to start these evaluations. So all other threads, their record files and the statistics
collected are those of a run in which every request is answered. -/
theorem c92_others (cfg : Config) (l : List (RunStep × (List Str → Str → Bool))) (r r' : Run F) (h : r.runQuiet cfg l = some r') :
    ∃ l' r0, l'.Sublist (l.map Prod.fst) ∧ r.run cfg l' = some r0 ∧ OnlyWaits r' r0 :=
  quiet_simulated cfg l r r r' (OnlyWaits.refl r) h

theorem stuck_step {quiet : List Str → Str → Bool} {cfg : Config} {r r' : Run F} {s : RunStep} (h : r.stepQuiet quiet cfg s = some r') {w : Worker F}
    {i : Nat} (hw : r.workers[i]? = some w) (hs : w.pc = .stuck) :
    r'.workers[i]? = some w ∧ (cfg.named = true → cfg.stat = true → r.collector = .running → r'.collector = .running ∧ outOf none r'.out = outOf none r.out) := by
  cases s with
  | work j net =>
    simp only [Run.stepQuiet] at h
    cases hj : r.workers[j]? with
    | none => rw [hj] at h; cases h
    | some v =>
      rw [hj] at h
      dsimp only at h
      cases hst : v.stepQuiet quiet cfg r.continuous j net with
      | none => rw [hst] at h; cases h
      | some p =>
        rw [hst] at h
        cases h
        dsimp only
        refine ⟨?_, fun _ _ hc => ⟨hc, outOf_none_worker _ _ _⟩⟩
        by_cases hij : j = i
        · subst hij
          rw [hw] at hj
          cases hj
          unfold Worker.stepQuiet Worker.step at hst
          rw [hs] at hst
          cases hst
        · rw [List.getElem?_set_ne hij]
          exact hw
  | stop =>
    simp only [Run.stepQuiet, Run.step] at h
    cases h
    exact ⟨hw, fun _ _ hc => ⟨hc, rfl⟩⟩
  | drop =>
    simp only [Run.stepQuiet, Run.step] at h
    split at h
    · cases h
      exact ⟨hw, fun _ _ hc => ⟨hc, rfl⟩⟩
    · cases h
  | collect =>
    simp only [Run.stepQuiet, Run.step] at h
    have hnd : r.workersDone = false := by
      cases hd : r.workersDone with
      | false => rfl
      | true =>
        simp only [Run.workersDone, List.all_eq_true, beq_iff_eq] at hd
        have := hd w (List.mem_of_getElem? hw)
        rw [hs] at this
        cases this
    split at h
    · cases h
    · split at h
      · split at h
        · cases h
          exact ⟨hw, fun _ _ hc => ⟨hc, rfl⟩⟩
        · split at h
          · rename_i hd
            cases h
            refine ⟨hw, fun hn _ _ => ?_⟩
            simp [Run.disconnected, hn, hnd] at hd
          · cases h
      · rename_i hst
        cases h
        exact ⟨hw, fun _ h' _ => absurd h' hst⟩

/-- C92: a thread that waits for an answer waits for ever, the program does not end, whatever the other threads do and whether or not the time is over or the
user interrupts it; in a run of a named test with `--stat` the statistics are never printed. -/
theorem c92_waiting (cfg : Config) : ∀ (l : List (RunStep × (List Str → Str → Bool))) (r r' : Run F), r.runQuiet cfg l = some r' → ∀ (i : Nat) w, r.workers[i]? = some w →
    w.pc = .stuck → r'.workers[i]? = some w ∧ r'.finished = false ∧
      (cfg.named = true → cfg.stat = true → r.collector = .running → r'.collector = .running ∧ outOf none r'.out = outOf none r.out)
  | [], r, r', h, i, w, hw, hs => by
    cases h
    refine ⟨hw, ?_, fun _ _ hc => ⟨hc, rfl⟩⟩
    cases hf : r.finished with
    | false => rfl
    | true =>
      simp only [Run.finished, Bool.and_eq_true, Run.workersDone, List.all_eq_true, beq_iff_eq] at hf
      have := hf.1.1 w (List.mem_of_getElem? hw)
      rw [hs] at this
      cases this
  | (s, quiet) :: l, r, r', h, i, w, hw, hs => by
    rw [Run.runQuiet, Option.bind_eq_some_iff] at h
    obtain ⟨r1, h1, h2⟩ := h
    obtain ⟨k1, k2⟩ := stuck_step h1 hw hs
    obtain ⟨k3, k4, k5⟩ := c92_waiting cfg l r1 r' h2 i w k1 hs
    refine ⟨k3, k4, fun hn hst hc => ?_⟩
    obtain ⟨a1, a2⟩ := k2 hn hst hc
    obtain ⟨a3, a4⟩ := k5 hn hst a1
    exact ⟨a3, a4.trans a2⟩

/-- C92: a run in which no thread waits at the end is a run in which every request was answered; in particular every run that ends is one. -/
theorem c92_answered (cfg : Config) : ∀ (l : List (RunStep × (List Str → Str → Bool))) (r r' : Run F), r.runQuiet cfg l = some r' →
    (∀ w ∈ r'.workers, w.pc ≠ .stuck) → r.run cfg (l.map Prod.fst) = some r'
  | [], r, r', h, _ => h
  | (s, quiet) :: l, r, r', h, hw => by
    rw [Run.runQuiet, Option.bind_eq_some_iff] at h
    obtain ⟨r1, h1, h2⟩ := h
    have ih := c92_answered cfg l r1 r' h2 hw
    rw [List.map_cons, Run.run, Option.bind_eq_some_iff]
    refine ⟨r1, ?_, ih⟩
    cases s with
    | work i net =>
      simp only [Run.stepQuiet] at h1
      cases hj : r.workers[i]? with
      | none => rw [hj] at h1; cases h1
      | some v =>
        rcases stepQuiet_cases quiet cfg r.continuous i net v with hq | ⟨_, ctx, t, hq⟩
        · rw [hj] at h1
          dsimp only at h1
          rw [hq] at h1
          simp only [Run.step, hj]
          exact h1
        · exfalso
          rw [hj] at h1
          dsimp only at h1
          rw [hq] at h1
          cases h1
          have hlt : i < r.workers.length := (List.getElem?_eq_some_iff.1 hj).1
          have := (c92_waiting cfg l _ r' h2 i { v with pc := .stuck, ctx } (by dsimp only; exact List.getElem?_set_self hlt) rfl).1
          exact hw _ (List.mem_of_getElem? this) rfl
    | stop => exact h1
    | drop => exact h1
    | collect => exact h1

/-- C92, the part about the end of the run, as stated: a run that has been stopped can still come to its end. -/
def StoppedRunEnds (F : Type) [Rt F] : Prop := ∀ (stat : Bool) (base : Context F) (name : Str) (test : List (Expr F)) (t n : Nat) (l : List (RunStep × (List Str → Str → Bool))) (r : Run F),
  (Run.init (List.replicate t (fresh false base name test))).runQuiet ⟨true, n / t, stat⟩ l = some r → r.continuous = false →
    ∃ l' r', r.runQuiet ⟨true, n / t, stat⟩ l' = some r' ∧ r'.finished = true

/-- C92 for states in which no thread waits (missing: a thread that waits for an answer, see `c92_waiting`): the run can come to its end. -/
theorem c92_ends_partial (cfg : Config) (net : Net) (hb : BodiesParse F net) (r : Run F) (hs : ∀ w ∈ r.workers, w.pc ≠ .stuck) :
    ∃ l' r', r.runQuiet cfg l' = some r' ∧ r'.finished = true := by
  obtain ⟨l, r', h1, h2⟩ := c51_can_finish cfg net hb r hs
  refine ⟨l.map fun s => (s, fun _ _ => false), r', ?_, h2⟩
  clear hs h2
  induction l generalizing r with
  | nil => exact h1
  | cons s l ih =>
    rw [Run.run, Option.bind_eq_some_iff] at h1
    obtain ⟨r1, k1, k2⟩ := h1
    rw [List.map_cons, Run.runQuiet, Option.bind_eq_some_iff]
    refine ⟨r1, ?_, ih r1 k2⟩
    cases s with
    | work i net =>
      simp only [Run.step, Run.stepQuiet] at k1 ⊢
      cases hw : r.workers[i]? with
      | none => rw [hw] at k1; cases k1
      | some w =>
        rw [hw] at k1
        dsimp only at k1 ⊢
        have hq : w.stepQuiet (fun _ _ => false) cfg r.continuous i net = w.step cfg r.continuous i net := by
          cases hpc : w.pc with
          | eval =>
            have never : ∀ sent, ¬ Unanswered (fun _ _ => false) sent := by rintro sent ⟨b, m, a, _, h⟩; cases h
            unfold Worker.stepQuiet Worker.step
            rw [hpc]
            dsimp only
            rw [(c92_block (fun _ _ => false) net w.test ⟨w.ctx, [], []⟩ (never _)).1 (never _)]
            rfl
          | _ => unfold Worker.stepQuiet; rw [hpc]
        rw [hq]
        exact k1
    | stop => exact k1
    | drop => exact k1
    | collect => exact k1

/-- C92 is false: the only request of the test is never answered; the run is stopped and never ends. -/
theorem c92_false (k : Clocks) : ¬ StoppedRunEnds F := by
  intro h
  have hr : (Run.init (List.replicate 1 (fresh false pingContext c!"t" [.call c!"ping" []]))).runQuiet (F := F) ⟨true, 1 / 1, true⟩
      [(.work 0 (refusing k), fun _ _ => false), (.work 0 (refusing k), fun _ _ => true), (.stop, fun _ _ => false)] = some _ := rfl
  obtain ⟨l', r', h1, h2⟩ := h true pingContext c!"t" [.call c!"ping" []] 1 1 _ _ hr rfl
  have := (c92_waiting _ l' _ r' h1 0 _ rfl rfl).2.1
  rw [this] at h2
  cases h2

/-- Concrete case for `c92_others`: two threads; the first waits for an answer, the second runs its iteration to the end. -/
example (k : Clocks) : ∃ r : Run F, (Run.init (List.replicate 2 (fresh false pingContext c!"t" [.call c!"ping" []]))).runQuiet ⟨true, 2 / 2, true⟩
    [(.work 0 (refusing k), fun _ _ => false), (.work 1 (refusing k), fun _ _ => false), (.work 0 (refusing k), fun _ _ => true),
      (.work 1 (refusing k), fun _ _ => false), (.work 1 (refusing k), fun _ _ => false), (.work 1 (refusing k), fun _ _ => false),
      (.work 1 (refusing k), fun _ _ => false), (.work 1 (refusing k), fun _ _ => false), (.work 1 (refusing k), fun _ _ => false), (.collect, fun _ _ => false)] = some r ∧
    r.workers.map (·.pc) = [.stuck, .done] ∧ r.channel = [] ∧ r.collector = .running :=
  ⟨_, rfl, rfl, rfl, rfl⟩

end Am
