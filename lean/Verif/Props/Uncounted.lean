import Verif.Props.Running
/-!
# The statistics of a run without a test name: C51
-/
namespace Am
open Spec
variable {F : Type} [Rt F]

/-- The statistics of a run of all tests: nothing ever reaches them. -/
structure NothingCounted (r : Run F) : Prop where
  noneSends : ∀ w ∈ r.workers, ∀ rs, w.pc ≠ .send rs
  channel : r.channel = []
  stats : r.stats = []
  shown : outOf none r.out = if r.collector = .done then [Stats.text F []] else []

theorem worker_sendsNothing {cfg : Config} (hn : cfg.named = false) {cont : Bool} {i : Nat} {net : Net} {w w' : Worker F} {e : Effect}
    (h : w.step cfg cont i net = some (w', e)) (hw : ∀ rs, w.pc ≠ .send rs) : (∀ rs, w'.pc ≠ .send rs) ∧ e.sent = [] := by
  unfold Worker.step at h
  rw [hn] at h
  simp only [Bool.false_eq_true, if_false] at h
  split at h
  · cases h; exact ⟨fun _ e => (by cases e), rfl⟩
  · split at h <;> (cases h; exact ⟨fun _ e => (by cases e), rfl⟩)
  · cases h; exact ⟨fun _ e => (by cases e), rfl⟩
  · cases h; exact ⟨fun _ e => (by cases e), rfl⟩
  · cases h; exact ⟨fun _ e => (by cases e), rfl⟩
  · rename_i hp; exact absurd hp (hw _)
  · cases h
  · cases h

theorem nothingCounted_step {cfg : Config} (hn : cfg.named = false) (hst : cfg.stat = true) {r r' : Run F} {s : RunStep} (h : NothingCounted r)
    (hs : r.step cfg s = some r') : NothingCounted r' := by
  cases s with
  | work i net =>
    simp only [Run.step] at hs
    split at hs
    · cases hs
    · rename_i w hw
      split at hs
      · cases hs
      · rename_i w' e he
        cases hs
        obtain ⟨k1, k2⟩ := worker_sendsNothing hn he (h.noneSends w (List.mem_of_getElem? hw))
        refine ⟨?_, by dsimp only; rw [h.channel, k2]; rfl, h.stats, by dsimp only; rw [outOf_none_worker]; exact h.shown⟩
        intro x hx
        rcases List.mem_or_eq_of_mem_set hx with hx | rfl
        · exact h.noneSends x hx
        · exact k1
  | stop => cases hs; exact ⟨h.noneSends, h.channel, h.stats, h.shown⟩
  | drop =>
    simp only [Run.step] at hs
    split at hs
    · cases hs; exact ⟨h.noneSends, h.channel, h.stats, h.shown⟩
    · cases hs
  | collect =>
    simp only [Run.step, hst, if_true, h.channel] at hs
    split at hs
    · cases hs
    · rename_i hcol
      split at hs
      · cases hs
        refine ⟨h.noneSends, rfl, h.stats, ?_⟩
        have := h.shown
        rw [hcol] at this
        unfold outOf at this ⊢
        rw [List.filter_append, List.map_append, this, h.stats]
        simp
      · cases hs

/-- **C51**, without a test name: what the statistics show then. Under every schedule nothing is ever counted, the text of no statistics is printed once,
and as soon as main has dropped its sender the statistics thread can end, however far the tests are. -/
theorem c51_all_tests (record : Bool) (base : Context F) (tests : List (Str × List (Expr F))) (l : List RunStep) (r : Run F)
    (h : AllRun record true base tests l r) :
    r.stats = [] ∧ outOf none r.out = (if r.collector = .done then [Stats.text F []] else []) ∧
    (r.mainSender = false → r.collector = .running → ∃ r', r.step ⟨false, 1, true⟩ .collect = some r' ∧ r'.collector = .done) := by
  have key : ∀ (l : List RunStep) (r0 r : Run F), NothingCounted r0 → r0.run ⟨false, 1, true⟩ l = some r → NothingCounted r := by
    intro l
    induction l with
    | nil => intro r0 r h0 h; cases h; exact h0
    | cons s l ih =>
      intro r0 r h0 h
      rw [Run.run, Option.bind_eq_some_iff] at h
      obtain ⟨r1, h1, h2⟩ := h
      exact ih r1 r (nothingCounted_step rfl rfl h0 h1) h2
  have k := key l _ r ⟨by
    intro w hw rs
    obtain ⟨p, _, rfl⟩ := List.mem_map.1 hw
    exact fun e => (by cases e), rfl, rfl, rfl⟩ h
  refine ⟨k.stats, k.shown, fun hm hc => ?_⟩
  simp only [Run.step, hc, k.channel, Run.disconnected, hm]
  exact ⟨_, rfl, rfl⟩

/-- Concrete case: the statistics end before the only test has begun. -/
example : ∃ r : Run F, AllRun false true pingContext [(c!"t", [.call c!"ping" []])] [.drop, .collect] r ∧ r.collector = .done ∧ r.workersDone = false :=
  ⟨_, rfl, rfl, rfl⟩
end Am
