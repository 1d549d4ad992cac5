import Verif.Spec.Observe
/-! # C88: recording and statistics only watch -/
set_option linter.unusedSectionVars false
namespace Am
open Spec
variable {F : Type} [Rt F]

theorem map_getElem_cases {α β : Type} (f : α → β) {l l' : List α} (h : l.map f = l'.map f) (i : Nat) :
    (l[i]? = none ∧ l'[i]? = none) ∨ ∃ a b, l[i]? = some a ∧ l'[i]? = some b ∧ f a = f b := by
  have h1 : (l.map f)[i]? = (l'.map f)[i]? := by rw [h]
  simp only [List.getElem?_map] at h1
  cases h2 : l[i]? with
  | none =>
    cases h3 : l'[i]? with
    | none => exact .inl ⟨rfl, rfl⟩
    | some b => rw [h2, h3] at h1; simp at h1
  | some a =>
    cases h3 : l'[i]? with
    | none => rw [h2, h3] at h1; simp at h1
    | some b =>
      rw [h2, h3] at h1
      exact .inr ⟨a, b, rfl, rfl, by simpa using h1⟩

theorem map_set_eq {α β : Type} (f : α → β) {l l' : List α} (h : l.map f = l'.map f) (i : Nat) {a b : α} (hab : f a = f b) :
    (l.set i a).map f = (l'.set i b).map f := by
  rw [List.map_set, List.map_set, h, hab]

/-- A step of a thread does not depend on its file and on `--stat`. -/
theorem workerStep_watch (cfg cfg' : Config) (h1 : cfg.named = cfg'.named) (h2 : cfg.maximum = cfg'.maximum) (cont : Bool) (i : Nat) (net : Net)
    {w w' : Worker F} (h : unrecorded w = unrecorded w') : (w.step cfg cont i net = none ∧ w'.step cfg' cont i net = none) ∨
    ∃ v e v' e', w.step cfg cont i net = some (v, e) ∧ w'.step cfg' cont i net = some (v', e') ∧ unrecorded v = unrecorded v' ∧ e.out = e'.out := by
  obtain ⟨p, n, t, c, k, f⟩ := w
  obtain ⟨p', n', t', c', k', f'⟩ := w'
  simp only [unrecorded, Worker.mk.injEq, and_true] at h
  obtain ⟨rfl, rfl, rfl, rfl, rfl⟩ := h
  unfold Worker.step
  rw [← h1, ← h2]
  cases p with
  | head =>
    dsimp only
    split
    · split <;> exact .inr ⟨_, _, _, _, rfl, rfl, rfl, rfl⟩
    · exact .inr ⟨_, _, _, _, rfl, rfl, rfl, rfl⟩
  | eval =>
    dsimp only
    rcases runBlock net t ⟨c, [], []⟩ with ⟨r, s⟩
    cases r with
    | err e =>
      dsimp only
      split <;> exact .inr ⟨_, _, _, _, rfl, rfl, rfl, rfl⟩
    | _ => exact .inr ⟨_, _, _, _, rfl, rfl, rfl, rfl⟩
  | print rs left =>
    cases left <;> exact .inr ⟨_, _, _, _, rfl, rfl, rfl, rfl⟩
  | write rs =>
    dsimp only
    split <;> exact .inr ⟨_, _, _, _, rfl, rfl, rfl, rfl⟩
  | send rs => exact .inr ⟨_, _, _, _, rfl, rfl, rfl, rfl⟩
  | done => exact .inl ⟨rfl, rfl⟩
  | stuck => exact .inl ⟨rfl, rfl⟩

theorem threadOutput_more (l : List (Option Nat × Str)) (i : Nat) (ts : List Str) :
    (l ++ ts.map fun t => (some i, t)).filter (fun c => c.1.isSome) = l.filter (fun c => c.1.isSome) ++ ts.map fun t => (some i, t) := by
  rw [List.filter_append]
  congr 1
  rw [List.filter_eq_self]
  intro a ha
  simp only [List.mem_map] at ha
  obtain ⟨t, _, rfl⟩ := ha
  rfl

theorem runStep_watch (cfg cfg' : Config) (h1 : cfg.named = cfg'.named) (h2 : cfg.maximum = cfg'.maximum) {r r' q : Run F} (h : SameWork r r')
    {s : RunStep} (hs : r.step cfg s = some q) : (s = .collect ∧ SameWork q r') ∨ s ≠ .collect ∧ ∃ q', r'.step cfg' s = some q' ∧ SameWork q q' := by
  obtain ⟨ws, ct, ch, ms, co, st, ou⟩ := r
  obtain ⟨ws', ct', ch', ms', co', st', ou'⟩ := r'
  obtain ⟨hw, h3, h4, ho⟩ := h
  dsimp only at hw h3 h4
  subst h3 h4
  cases s with
  | work i net =>
    refine .inr ⟨by simp, ?_⟩
    unfold Run.step at hs ⊢
    dsimp only at hs ⊢
    rcases map_getElem_cases unrecorded hw i with ⟨h5, h6⟩ | ⟨w, w', h5, h6, h7⟩
    · rw [h5] at hs; simp at hs
    · rw [h5] at hs
      rw [h6]
      dsimp only at hs ⊢
      rcases workerStep_watch cfg cfg' h1 h2 ct i net h7 with ⟨h8, h9⟩ | ⟨v, e, v', e', h8, h9, h10, h11⟩
      · rw [h8] at hs; simp at hs
      · rw [h8] at hs
        rw [h9]
        simp only [Option.some.injEq] at hs
        subst hs
        refine ⟨_, rfl, ⟨map_set_eq unrecorded hw i h10, rfl, rfl, ?_⟩⟩
        unfold threadOutput at ho ⊢
        dsimp only at ho ⊢
        rw [threadOutput_more, threadOutput_more, ho, h11]
  | stop =>
    refine .inr ⟨by simp, ?_⟩
    cases hs
    exact ⟨_, rfl, ⟨hw, rfl, rfl, ho⟩⟩
  | drop =>
    refine .inr ⟨by simp, ?_⟩
    unfold Run.step at hs ⊢
    dsimp only at hs ⊢
    by_cases hm : ms = true
    · rw [if_pos hm] at hs
      rw [if_pos hm]
      cases hs
      exact ⟨_, rfl, ⟨hw, rfl, rfl, ho⟩⟩
    · rw [if_neg hm] at hs; simp at hs
  | collect =>
    refine .inl ⟨rfl, ?_⟩
    unfold Run.step at hs
    dsimp only at hs
    split at hs
    · simp at hs
    · split at hs
      · split at hs
        · cases hs
          exact ⟨hw, rfl, rfl, ho⟩
        · split at hs
          · cases hs
            refine ⟨hw, rfl, rfl, ?_⟩
            rw [← ho]
            unfold threadOutput
            simp
          · simp at hs
      · cases hs
        exact ⟨hw, rfl, rfl, ho⟩

/-- C88: whatever happens in a run, with or without record files and statistics, can happen the same with any other choice of `--record` and
`--stat`: the same steps of the threads lead to the same threads and the same output of the threads. -/
theorem c88_run (cfg cfg' : Config) (h1 : cfg.named = cfg'.named) (h2 : cfg.maximum = cfg'.maximum) (sched : List RunStep) {r r' q : Run F}
    (h : SameWork r r') (hr : r.run cfg sched = some q) : ∃ q', r'.run cfg' (withoutCollector sched) = some q' ∧ SameWork q q' := by
  induction sched generalizing r r' with
  | nil =>
    cases hr
    exact ⟨r', rfl, h⟩
  | cons s l ih =>
    unfold Run.run at hr
    cases hs : r.step cfg s with
    | none => rw [hs] at hr; simp at hr
    | some p =>
      rw [hs] at hr
      rcases runStep_watch cfg cfg' h1 h2 h hs with ⟨rfl, h3⟩ | ⟨hne, p', h3, h4⟩
      · exact ih h3 hr
      · obtain ⟨q', h5, h6⟩ := ih h4 hr
        refine ⟨q', ?_, h6⟩
        have hw : withoutCollector (s :: l) = s :: withoutCollector l := by
          cases s <;> first | rfl | exact absurd rfl hne
        rw [hw]
        unfold Run.run
        rw [h3]
        exact h5

/-- C88: `am test` starts the same threads, whatever is said about recording and statistics. -/
theorem c88_started (order : List (Str × List (Expr F)) → List (Str × List (Expr F))) (record record' : Bool) (base : Context F)
    (tests : List (Str × List (Expr F))) (name : Option Str) (threads number : Nat) (stat stat' : Bool) (cfg : Config) (ws : List (Worker F))
    (h : startWorkers order record base tests name threads number stat = .ok (some (cfg, ws))) :
    ∃ cfg' ws', startWorkers order record' base tests name threads number stat' = .ok (some (cfg', ws')) ∧ cfg.named = cfg'.named ∧
      cfg.maximum = cfg'.maximum ∧ SameWork (Run.init ws) (Run.init ws') := by
  have hi : ∀ (n : Str) (t : List (Expr F)), unrecorded (Worker.init record base n t) = unrecorded (Worker.init record' base n t) := fun _ _ => rfl
  unfold startWorkers at h ⊢
  split at h
  · rename_i nm
    cases ht : amGet nm tests with
    | none => rw [ht] at h; exact nomatch h
    | some t =>
      rw [ht] at h
      dsimp only at h ⊢
      cases hp : perThread number threads with
      | ok m =>
        rw [hp] at h
        injection h with h
        injection h with h
        injection h with h4 h5
        subst h4 h5
        refine ⟨_, _, rfl, rfl, rfl, ⟨?_, rfl, rfl, rfl⟩⟩
        simp only [Run.init, List.map_replicate, hi]
      | err e => rw [hp] at h; exact nomatch h
      | panic => rw [hp] at h; exact nomatch h
      | hang => rw [hp] at h; exact nomatch h
  · injection h with h
    injection h with h
    injection h with h4 h5
    subst h4 h5
    refine ⟨_, _, rfl, rfl, rfl, ⟨?_, rfl, rfl, rfl⟩⟩
    simp only [Run.init, List.map_map]
    rfl

/-- C88: the expressions outside the tests print and send the same. -/
theorem c88_before (order : List (Str × List (Expr F)) → List (Str × List (Expr F))) (net : Net) (name : Option Str) (threads : Nat)
    (duration : Option Nat) (number : Nat) (record record' stat stat' : Bool) (text : Str) :
    (startTest (F := F) order net ⟨name, threads, duration, number, record, stat⟩ text).2 =
    (startTest order net ⟨name, threads, duration, number, record', stat'⟩ text).2 := by
  unfold startTest
  rcases setup net text ⟨Context.new, [], []⟩ with ⟨r, s⟩
  cases r with
  | ok o =>
    cases o with
    | none => rfl
    | some tests =>
      unfold startWorkers
      cases name with
      | none => rfl
      | some nm =>
        cases ht : amGet nm tests with
        | none => simp only [ht]; rfl
        | some t =>
          simp only [ht]
          cases perThread (limits duration number).2 threads <;> rfl
  | err e => rfl
  | panic => rfl
  | hang => rfl

/-- A run with a record file and statistics and one without. -/
example : SameWork (F := F) (Run.init [Worker.init true Context.new c!"t" []]) (Run.init [Worker.init false Context.new c!"t" []]) :=
  ⟨rfl, rfl, rfl, rfl⟩

end Am
