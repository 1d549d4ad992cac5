import Verif.Spec.Builds
import Verif.Proofs.TwoRunsEval
/-! # C86: a release build does what a debug build does, unless the debug build crashes -/
set_option linter.unusedSectionVars false
namespace Am
open Spec
variable {F : Type}

theorem agrees_id {s t : St F} (h : Agrees id s t) : s = t := by
  obtain ⟨⟨a, b, c⟩, d, e⟩ := s
  obtain ⟨⟨a', b', c'⟩, d', e'⟩ := t
  simpa [Agrees, St.onRecords] using h

theorem behind_runsOn {s t : St F} (h : Behind s t) : RunsOn s t := by
  obtain ⟨⟨a, ha⟩, b, hb⟩ := h
  exact ⟨⟨a, ha.symm⟩, b, hb.symm⟩

theorem sends_tied_refl (g : Record → Record) (net : Net) : SendsTied g net net := fun _ _ => .inl rfl

theorem tied_builds {α : Type} {x y : Res α × St F} (h : Tied id True x y) : (x.1 ≠ .panic → y = x) ∧ RunsOn x.2 y.2 := by
  rcases h with ⟨h1, h2⟩ | ⟨_, h1, h2⟩
  · obtain ⟨r, s⟩ := x
    obtain ⟨r', s'⟩ := y
    cases h1
    cases agrees_id h2
    exact ⟨fun _ => rfl, behind_runsOn (Behind.refl s)⟩
  · exact ⟨fun h => absurd h1 h, behind_runsOn h2⟩

/-- C86: a block of expressions, in every state: unless the debug build crashes, the release build gives the same result in the same state,
and what the debug build has sent and printed when it crashes, the release build sends and prints as well. -/
theorem c86_block (i : Rt F) (net : Net) (es : List (Expr F)) (s : St F) :
    ((@runBlock F (debugBuild i) net es s).1 ≠ .panic → @runBlock F (releaseBuild i) net es s = @runBlock F (debugBuild i) net es s) ∧
    RunsOn (@runBlock F (debugBuild i) net es s).2 (@runBlock F (releaseBuild i) net es s).2 :=
  tied_builds (runBlock_tied (g := id) (may := True) (debugBuild i) false (.inl ⟨trivial, rfl⟩) net net (sends_tied_refl _ _) es s s rfl)

/-- C86: `am eval` and a line of a session. -/
theorem c86_text (i : Rt F) (net : Net) (text : Str) (s : St F) :
    ((@evalText F (debugBuild i) net text s).1 ≠ .panic → @evalText F (releaseBuild i) net text s = @evalText F (debugBuild i) net text s) ∧
    RunsOn (@evalText F (debugBuild i) net text s).2 (@evalText F (releaseBuild i) net text s).2 :=
  tied_builds (evalText_tied (g := id) (may := True) (debugBuild i) false (.inl ⟨trivial, rfl⟩) net net (sends_tied_refl _ _) text s s rfl)

/-- C86: a whole session. -/
theorem c86_session (i : Rt F) (net : Net) (input : List Input) (sent : List Str) (out : Str) :
    ((@repl F (debugBuild i) net input sent out).1 ≠ .panic →
      @repl F (releaseBuild i) net input sent out = @repl F (debugBuild i) net input sent out) ∧
    RunsOn (@repl F (debugBuild i) net input sent out).2 (@repl F (releaseBuild i) net input sent out).2 :=
  tied_builds (replLoop_tied (g := id) (may := True) (debugBuild i) false (.inl ⟨trivial, rfl⟩) net net (sends_tied_refl _ _) input _ _ rfl)

/-- C86: the argument of `--duration`. -/
theorem c86_duration (i : Rt F) (s : Str) : @parseDuration F (debugBuild i) s ≠ .panic →
    @parseDuration F (releaseBuild i) s = @parseDuration F (debugBuild i) s := by
  have h : ∀ a b, @u64Mul F (debugBuild i) a b ≠ .panic → @u64Mul F (releaseBuild i) a b = @u64Mul F (debugBuild i) a b := by
    intro a b
    unfold u64Mul
    by_cases hlt : a * b < 2 ^ 64
    · rw [if_pos hlt, if_pos hlt]; exact fun _ => rfl
    · rw [if_neg hlt, if_neg hlt]; exact fun h => absurd rfl h
  unfold parseDuration
  split
  · exact fun _ => rfl
  · split
    · exact fun _ => rfl
    · exact h _ _
    · exact h _ _
    · exact fun _ => rfl
    · exact fun _ => rfl

theorem setup_tied (i : Rt F) (net : Net) (text : Str) :
    TiedM (F := F) id True (@setup F (debugBuild i) net text) (@setup F (releaseBuild i) net text) := by
  have hp : @parse F (releaseBuild i) = @parse F (debugBuild i) := setChecks_parse (debugBuild i) false
  unfold setup
  rw [hp]
  split
  · rename_i src _
    intro s t hs
    cases agrees_id hs
    have h := runBlock_tied (g := id) (may := True) (debugBuild i) false (.inl ⟨trivial, rfl⟩) net net (sends_tied_refl _ _) src.exprs
      { s with ctx := s.ctx.extend src.requests } { s with ctx := s.ctx.extend src.requests } rfl
    rcases hm : @runBlock F (debugBuild i) net src.exprs { s with ctx := s.ctx.extend src.requests } with ⟨r, s1⟩
    rcases hm' : @runBlock F (releaseBuild i) net src.exprs { s with ctx := s.ctx.extend src.requests } with ⟨r', t1⟩
    change Tied id True (@runBlock F (debugBuild i) _ _ _) (@runBlock F (releaseBuild i) _ _ _) at h
    rw [hm, hm'] at h
    change Tied id True (match @runBlock F (debugBuild i) net src.exprs { s with ctx := s.ctx.extend src.requests } with
      | (.ok _, s) => (.ok (some src.tests), s)
      | (.err e, s) => (.ok none, (sayLine e s).2)
      | (.panic, s) => (.panic, s)
      | (.hang, s) => (.hang, s)) (match @runBlock F (releaseBuild i) net src.exprs { s with ctx := s.ctx.extend src.requests } with
      | (.ok _, s) => (.ok (some src.tests), s)
      | (.err e, s) => (.ok none, (sayLine e s).2)
      | (.panic, s) => (.panic, s)
      | (.hang, s) => (.hang, s))
    rw [hm, hm']
    rcases h with ⟨h1, h2⟩ | ⟨h1, h2, h3⟩
    · cases h1
      cases agrees_id h2
      exact .inl ⟨rfl, rfl⟩
    · cases h2
      refine .inr ⟨trivial, rfl, ?_⟩
      cases r' with
      | ok v => exact h3
      | err e => exact h3.trans (sayLine_grows e t1)
      | panic => exact h3
      | hang => exact h3
  · intro s t hs
    cases agrees_id hs
    exact .inl ⟨rfl, rfl⟩
  · exact tied_lift (.inl rfl)
  · exact tied_lift (.inl rfl)

/-- C86: `am test` up to the start of its threads. -/
theorem c86_started (i : Rt F) (order : List (Str × List (Expr F)) → List (Str × List (Expr F))) (net : Net) (args : TestArgs) (root : Str)
    (files : Node) (h : (@amTest F (debugBuild i) order net args root files).1 ≠ .panicked) :
    @amTest F (releaseBuild i) order net args root files = @amTest F (debugBuild i) order net args root files := by
  revert h
  unfold amTest
  split
  · rename_i text _
    have hs := tied_builds (setup_tied i net text ⟨Context.new, [], []⟩ ⟨Context.new, [], []⟩ rfl)
    unfold startTest
    rcases hm : @setup F (debugBuild i) net text ⟨Context.new, [], []⟩ with ⟨r, s1⟩
    rw [hm] at hs
    cases r with
    | panic => exact fun h => absurd rfl h
    | ok o => rw [hs.1 (by simp)]; exact fun _ => rfl
    | err e => rw [hs.1 (by simp)]; exact fun _ => rfl
    | hang => rw [hs.1 (by simp)]; exact fun _ => rfl
  · exact fun _ => rfl

theorem workerStep_builds (i : Rt F) (cfg : Config) (cont : Bool) (k : Nat) (net : Net) (w : Worker F)
    (h : w.pc = .eval → (@runBlock F (debugBuild i) net w.test ⟨w.ctx, [], []⟩).1 ≠ .panic) :
    @Worker.step F (releaseBuild i) cfg cont k net w = @Worker.step F (debugBuild i) cfg cont k net w := by
  unfold Worker.step
  split
  · rfl
  · rename_i hpc
    rw [(c86_block i net w.test ⟨w.ctx, [], []⟩).1 (h hpc)]
  all_goals rfl

theorem runStep_builds (i : Rt F) (cfg : Config) (r : Run F) (s : RunStep)
    (h : ∀ k net w, s = .work k net → r.workers[k]? = some w → w.pc = .eval → (@runBlock F (debugBuild i) net w.test ⟨w.ctx, [], []⟩).1 ≠ .panic) :
    @Run.step F (releaseBuild i) cfg r s = @Run.step F (debugBuild i) cfg r s := by
  cases s with
  | work k net =>
    unfold Run.step
    dsimp only
    split
    · rfl
    · rename_i w hw
      rw [workerStep_builds i cfg r.continuous k net w (h k net w rfl hw)]
  | stop => rfl
  | drop => rfl
  | collect =>
    unfold Run.step
    have hs : @Stats.text F (releaseBuild i) = @Stats.text F (debugBuild i) := setChecks_stats (debugBuild i) false
    rw [hs]

/-- C86: the threads of `am test`, under every schedule: if no thread of the debug build crashes, the threads of the release build do the same. -/
theorem c86_run (i : Rt F) (cfg : Config) (r : Run F) (sched : List RunStep) (h : Untroubled (debugBuild i) cfg r sched) :
    ∃ r', @Run.run F (debugBuild i) cfg r sched = some r' ∧ @Run.run F (releaseBuild i) cfg r sched = some r' := by
  induction h with
  | nil r => exact ⟨r, rfl, rfl⟩
  | cons h1 h2 h3 ih =>
    obtain ⟨r', h4, h5⟩ := ih
    have h6 := runStep_builds i cfg _ _ h1
    refine ⟨r', ?_, ?_⟩
    · unfold Run.run; rw [h2]; exact h4
    · unfold Run.run; rw [h6, h2]; exact h5

/-- A thread that evaluates `1 + 2` and goes on to print. -/
example (i : Rt F) (net : Net) : Untroubled (debugBuild i) ⟨false, 1, false⟩
    (Run.init [⟨.eval, c!"t", [.binary ⟨.Add, c!"+"⟩ (.int 1) (.int 2)], Context.new, 0, none⟩]) [.work 0 net, .work 0 net] :=
  .cons (fun k net w hs hw hp => by cases hs; cases hw; exact fun h => nomatch h) rfl
    (.cons (fun k net w hs hw hp => by cases hs; cases hw; cases hp) rfl (.nil _))

theorem checked_over (i : Rt F) {e : Int} (h : ¬ (i64Min ≤ e ∧ e ≤ i64Max)) :
    @checked F (debugBuild i) e = .panic ∧ @checked F (releaseBuild i) e = .ok (Int64.ofInt e) := by
  unfold checked
  rw [if_neg h, if_neg h]
  exact ⟨rfl, rfl⟩

/-- C86: the two builds do differ: the largest integer plus one crashes a debug build and prints the smallest integer in a release build. -/
theorem c86_differs (i : Rt F) (net : Net) :
    (@evalText F (debugBuild i) net c!"print(\"{a}\", 1); 9223372036854775807 + 1" ⟨Context.new, [], []⟩).1 = .panic ∧
    @evalText F (releaseBuild i) net c!"print(\"{a}\", 1); 9223372036854775807 + 1" ⟨Context.new, [], []⟩ =
      (.ok (), ⟨Context.new, [], c!"1-9223372036854775808\n"⟩) := by
  constructor <;> rfl

end Am
