import Verif.Proofs.Run
import Verif.Props.Statistics
import Verif.Props.Recording
import Verif.Props.Evaluating
/-!
# Runs of tests: C49 to C53, C58
-/
set_option linter.unusedSimpArgs false
set_option linter.unusedSectionVars false
namespace Am
open Spec
variable {F : Type} [Rt F]

/-- What `am test name` starts is what the theorems below are about. -/
theorem named_start (order : List (Str × List (Expr F)) → List (Str × List (Expr F))) (record : Bool) (base : Context F) (tests : List (Str × List (Expr F)))
    (name : Str) (test : List (Expr F)) (t n : Nat) (stat : Bool) (h : amGet name tests = some test) (ht : t ≠ 0) :
    startWorkers order record base tests (some name) t n stat = .ok (some (⟨true, n / t, stat⟩, List.replicate t (fresh record base name test))) := by
  simp only [startWorkers, h, perThread, if_neg ht]
  rfl

/-- The same for `am test` without a name. -/
theorem all_start (order : List (Str × List (Expr F)) → List (Str × List (Expr F))) (record : Bool) (base : Context F) (tests : List (Str × List (Expr F)))
    (t n : Nat) (stat : Bool) :
    startWorkers order record base tests none t n stat = .ok (some (⟨false, 1, stat⟩, (order tests).map fun p => fresh record base p.1 p.2)) := rfl

/-! ## C53 -/

/-- C53: a thread begins with the top-level variables and requests and no records. -/
theorem c53_start (record : Bool) (base : Context F) (name : Str) (test : List (Expr F)) :
    (fresh record base name test).ctx.inner = base.inner ∧ (fresh record base name test).ctx.requests = base.requests ∧
    (fresh record base name test).ctx.records = [] := ⟨rfl, rfl, rfl⟩

/-- C53: what a thread does depends only on its own start and on what it sees itself (stop flag and network at its own steps): in two runs, with
any other threads and under any schedules, in which a thread starts the same and sees the same, it is in the same state, has written the same file and
printed the same text. -/
theorem c53_isolated (cfg : Config) (r₁ r₂ r₁' r₂' : Run F) (l₁ l₂ : List RunStep) (i : Nat) (w : Worker F)
    (h₁ : r₁.run cfg l₁ = some r₁') (h₂ : r₂.run cfg l₂ = some r₂') (hw₁ : r₁.workers[i]? = some w) (hw₂ : r₂.workers[i]? = some w)
    (hin : inputs i r₁.continuous l₁ = inputs i r₂.continuous l₂) (ho₁ : r₁.out = []) (ho₂ : r₂.out = []) :
    r₁'.workers[i]? = r₂'.workers[i]? ∧ outOf (some i) r₁'.out = outOf (some i) r₂'.out := by
  obtain ⟨_, log₁, _, _, _, _, g₁⟩ := run_project h₁
  obtain ⟨_, log₂, _, _, _, _, g₂⟩ := run_project h₂
  obtain ⟨w₁, o₁, a1, a2, a3⟩ := g₁ i w hw₁
  obtain ⟨w₂, o₂, b1, b2, b3⟩ := g₂ i w hw₂
  rw [hin, b1] at a1
  simp only [Option.some.injEq, Prod.mk.injEq] at a1
  obtain ⟨rfl, rfl, _⟩ := a1
  rw [a2, b2, a3, b3, ho₁, ho₂]
  exact ⟨rfl, rfl⟩

theorem iterations_length {test : List (Expr F)} {base : Context F} {nets : List Net} {hist : List (Str × List Record)} {c : Context F}
    (h : Iterations test base nets hist c) : nets.length = hist.length := by
  induction h with
  | nil => rfl
  | snoc _ _ ih => simp [ih]

/-- The iterations are determined by the networks. -/
theorem iterations_unique {test : List (Expr F)} {base : Context F} {nets : List Net} {hist hist' : List (Str × List Record)} {c c' : Context F}
    (h : Iterations test base nets hist c) (h' : Iterations test base nets hist' c') : hist = hist' ∧ c = c' := by
  induction h generalizing hist' c' with
  | nil =>
    generalize hn : ([] : List Net) = ns at h'
    cases h' with
    | nil => exact ⟨rfl, rfl⟩
    | snoc _ _ => simp at hn
  | @snoc nets hist c net v s h hr ih =>
    generalize hn : nets ++ [net] = ns at h'
    cases h' with
    | nil => simp at hn
    | @snoc nets' hist'' c'' net' v' s' h'' hr' =>
      obtain ⟨e1, e2⟩ := List.append_inj' hn rfl
      simp only [List.cons.injEq, and_true] at e2
      subst e1 e2
      obtain ⟨rfl, rfl⟩ := ih h''
      rw [hr] at hr'
      cases hr'
      exact ⟨rfl, rfl⟩

/-- Every thread of a named run satisfies the invariant. -/
theorem named_worker {record stat : Bool} {base : Context F} {name : Str} {test : List (Expr F)} {t n : Nat} {l : List RunStep} {r : Run F}
    (h : NamedRun record stat base name test t n l r) :
    r.workers.length = t ∧
    ∃ (log : List (Nat × List Record)) (received : List (List Record)), (∀ p ∈ log, p.1 < t) ∧ received ++ r.channel = log.map Prod.snd ∧
      r.stats = received.foldl addBatch [] ∧
      ∀ i, i < t → ∃ w, r.workers[i]? = some w ∧
        NamedOk ⟨true, n / t, stat⟩ i record name test base.clone w (inputs i true l) (executions record stat base name test t n l i)
          (outOf (some i) r.out) (sentBy i log) := by
  obtain ⟨hlen, log, received, g0, g1, g2, g3⟩ := run_project h
  simp only [Run.init, List.length_replicate] at hlen g0
  refine ⟨hlen, log, received, g0, by simpa [Run.init] using g1, g2, ?_⟩
  intro i hi
  obtain ⟨w', o, k1, k2, k3⟩ := g3 i (fresh record base name test) (by simp [Run.init, List.getElem?_replicate, hi])
  refine ⟨w', k2, ?_⟩
  have := named_run (cfg := ⟨true, n / t, stat⟩) rfl (named_init _ i record name test base) k1
  simp only [List.nil_append] at this
  rw [k3]
  exact this

/-! ## C49 -/

theorem sum_le_mul {l : List Nat} {m : Nat} (h : ∀ x ∈ l, x ≤ m) : l.sum ≤ l.length * m := by
  induction l with
  | nil => simp
  | cons x l ih =>
    have := ih fun y hy => h y (List.mem_cons_of_mem _ hy)
    have := h x List.mem_cons_self
    rw [List.sum_cons, List.length_cons, Nat.add_mul]
    omega

theorem sum_eq_mul {l : List Nat} {m : Nat} (h : ∀ x ∈ l, x = m) : l.sum = l.length * m := by
  induction l with
  | nil => simp
  | cons x l ih =>
    have := ih fun y hy => h y (List.mem_cons_of_mem _ hy)
    have := h x List.mem_cons_self
    rw [List.sum_cons, List.length_cons, Nat.add_mul]
    omega

theorem named_bound {cfg : Config} {i : Nat} {record : Bool} {name : Str} {test : List (Expr F)} {base : Context F} {w : Worker F}
    {ins : List (Bool × Net)} {nets : List Net} {out : List Str} {sent : List (List Record)}
    (h : NamedOk cfg i record name test base w ins nets out sent) : nets.length ≤ cfg.maximum := by
  obtain ⟨_, _, good, hist, c, hit, ha⟩ := h
  have hl := iterations_length hit
  unfold NamedAt at ha
  cases hpc : w.pc with
  | head => rw [hpc] at ha; obtain ⟨a1, _, a3, a4, _⟩ := ha; subst a1; omega
  | eval => rw [hpc] at ha; obtain ⟨a1, _, a3, a4, _⟩ := ha; subst a1; omega
  | print rs left =>
    rw [hpc] at ha; obtain ⟨h0, o, pre, b1, _, a1, _, a3, a4, _⟩ := ha
    subst a1; rw [b1, List.length_append] at hl; simp only [List.length_cons, List.length_nil] at hl; omega
  | write rs =>
    rw [hpc] at ha; obtain ⟨h0, o, b1, a1, _, a3, a4, _⟩ := ha
    subst a1; rw [b1, List.length_append] at hl; simp only [List.length_cons, List.length_nil] at hl; omega
  | send rs =>
    rw [hpc] at ha; obtain ⟨h0, o, b1, a1, _, a3, a4, _⟩ := ha
    subst a1; rw [b1, List.length_append] at hl; simp only [List.length_cons, List.length_nil] at hl; omega
  | done =>
    rw [hpc] at ha
    obtain ⟨a1, _, _, ⟨b1, _, _, b4, _⟩ | ⟨net, s, b1, b2, _⟩⟩ := ha
    · subst b1; omega
    · subst b1; rw [List.length_append]; simp only [List.length_cons, List.length_nil]; omega
  | stuck =>
    rw [hpc] at ha
    obtain ⟨a1, _, _, net, s, b1, b2, _⟩ := ha
    subst b1; rw [List.length_append]; simp only [List.length_cons, List.length_nil]; omega

/-- C49: at no moment of any run has the test body been executed more than `n` times, or more than `n / t` times by one thread. -/
theorem c49_at_most (record stat : Bool) (base : Context F) (name : Str) (test : List (Expr F)) (t n : Nat) (l : List RunStep) (r : Run F)
    (h : NamedRun record stat base name test t n l r) :
    (∀ i, i < t → (executions record stat base name test t n l i).length ≤ n / t) ∧ total record stat base name test t n l ≤ n := by
  obtain ⟨_, log, received, _, _, _, g⟩ := named_worker h
  have h1 : ∀ i, i < t → (executions record stat base name test t n l i).length ≤ n / t := by
    intro i hi
    obtain ⟨w, _, hw⟩ := g i hi
    exact named_bound hw
  refine ⟨h1, ?_⟩
  have := sum_le_mul (l := (List.range t).map fun i => (executions record stat base name test t n l i).length) (m := n / t) (by
    intro x hx
    obtain ⟨i, hi, rfl⟩ := List.mem_map.1 hx
    exact h1 i (List.mem_range.1 hi))
  simp only [List.length_map, List.length_range] at this
  exact Nat.le_trans this (Nat.mul_div_le n t)

theorem inputs_true (i : Nat) {l : List RunStep} (h : RunStep.stop ∉ l) : ∀ x ∈ inputs i true l, x.1 = true := by
  induction l with
  | nil => intro x hx; cases hx
  | cons s l ih =>
    have hl : RunStep.stop ∉ l := fun hm => h (List.mem_cons_of_mem _ hm)
    cases s with
    | work j net =>
      intro x hx
      simp only [inputs] at hx
      split at hx
      · rcases List.mem_cons.1 hx with rfl | hx
        · rfl
        · exact ih hl x hx
      · exact ih hl x hx
    | stop => exact absurd List.mem_cons_self h
    | drop => exact ih hl
    | collect => exact ih hl

/-- C49: absent errors and interruption, when all threads have ended each has executed the test body exactly `n / t` times. -/
theorem c49_per_thread (record stat : Bool) (base : Context F) (name : Str) (test : List (Expr F)) (t n : Nat) (l : List RunStep) (r : Run F)
    (h : NamedRun record stat base name test t n l r) (hd : r.workersDone = true) (hs : RunStep.stop ∉ l)
    (hok : ∀ i, i < t → ∃ hist c, Iterations test base.clone (executions record stat base name test t n l i) hist c) :
    (∀ i, i < t → (executions record stat base name test t n l i).length = n / t) ∧ total record stat base name test t n l = t * (n / t) := by
  obtain ⟨hlen, log, received, _, _, _, g⟩ := named_worker h
  have h1 : ∀ i, i < t → (executions record stat base name test t n l i).length = n / t := by
    intro i hi
    obtain ⟨w, hw, _, _, good, hist, c, hit, ha⟩ := g i hi
    have hpc : w.pc = .done := by
      have := List.all_eq_true.1 hd w (List.mem_of_getElem? hw)
      simpa using this
    unfold NamedAt at ha
    rw [hpc] at ha
    obtain ⟨a1, _, _, ⟨b1, _, _, b4, b5⟩ | ⟨net, s, b1, b2, b3⟩⟩ := ha
    · rw [b1, iterations_length hit, ← a1]
      exact b5 (inputs_true i hs)
    · exfalso
      obtain ⟨hist', c', hit'⟩ := hok i hi
      rw [b1] at hit'
      generalize hgn : good ++ [net] = ns at hit'
      cases hit' with
      | nil => simp at hgn
      | @snoc nets' hist'' c'' net' v' s' h'' hr' =>
        obtain ⟨e1, e2⟩ := List.append_inj' hgn rfl
        simp only [List.cons.injEq, and_true] at e2
        subst e1 e2
        obtain ⟨_, rfl⟩ := iterations_unique hit h''
        rcases b3 with ⟨e, b3, _⟩ | ⟨b3, _⟩ <;> rw [hr'] at b3 <;> cases b3
  refine ⟨h1, ?_⟩
  have := sum_eq_mul (l := (List.range t).map fun i => (executions record stat base name test t n l i).length) (m := n / t) (by
    intro x hx
    obtain ⟨i, hi, rfl⟩ := List.mem_map.1 hx
    exact h1 i (List.mem_range.1 hi))
  rw [List.length_map, List.length_range] at this
  exact this

/-- C49 when the number of threads divides the number of executions (missing: the remainder of `n / t` is never executed, see `c49_false`). -/
theorem c49_exact_partial (record stat : Bool) (base : Context F) (name : Str) (test : List (Expr F)) (t n : Nat) (l : List RunStep) (r : Run F)
    (h : NamedRun record stat base name test t n l r) (hd : r.workersDone = true) (hs : RunStep.stop ∉ l)
    (hok : ∀ i, i < t → ∃ hist c, Iterations test base.clone (executions record stat base name test t n l i) hist c) :
    total record stat base name test t n l = n ↔ t ∣ n := by
  rw [(c49_per_thread record stat base name test t n l r h hd hs hok).2]
  exact ⟨fun he => ⟨_, he.symm⟩, fun hdv => Nat.mul_div_cancel' hdv⟩

/-- C49 is false: with 2 threads and `--number 1` a complete run executes the test body not once. -/
theorem c49_false (base : Context F) (name : Str) (test : List (Expr F)) (net : Net) :
    ∃ l r, NamedRun false false base name test 2 1 l r ∧ r.finished = true ∧ RunStep.stop ∉ l ∧ total false false base name test 2 1 l = 0 :=
  ⟨[.work 0 net, .work 1 net, .drop, .collect], _, rfl, rfl, by simp, rfl⟩

/-- C49: and with no threads the program panics before it starts any. -/
theorem c49_no_threads (n : Nat) : perThread n 0 = .panic := rfl

/-- Concrete case: one thread executes an empty test twice and ends. -/
example (base : Context F) (net : Net) :
    ∃ l r, NamedRun false false base c!"t" [] 1 2 l r ∧ r.workersDone = true ∧ RunStep.stop ∉ l ∧ total false false base c!"t" [] 1 2 l = 2 :=
  ⟨List.replicate 11 (.work 0 net), _, rfl, rfl, by simp, rfl⟩

/-! ## C50 -/

/-- Every thread of a run of all tests satisfies the invariant. -/
theorem all_worker {record stat : Bool} {base : Context F} {tests : List (Str × List (Expr F))} {l : List RunStep} {r : Run F}
    (h : AllRun record stat base tests l r) :
    r.workers.length = tests.length ∧ r.channel = [] ∧ r.stats = [] ∧
      ∀ i name test, tests[i]? = some (name, test) → ∃ w, r.workers[i]? = some w ∧
        AllOk i record name test base.clone w (evalNets ⟨false, 1, stat⟩ i (fresh record base name test) (inputs i true l)) (outOf (some i) r.out) [] := by
  obtain ⟨hlen, log, received, g0, g1, g2, g3⟩ := run_project h
  simp only [Run.init, List.length_map] at hlen g0
  have key : ∀ i name test, tests[i]? = some (name, test) → ∃ w, r.workers[i]? = some w ∧
        AllOk i record name test base.clone w (evalNets ⟨false, 1, stat⟩ i (fresh record base name test) (inputs i true l)) (outOf (some i) r.out)
          (sentBy i log) := by
    intro i name test hi
    obtain ⟨w', o, k1, k2, k3⟩ := g3 i (fresh record base name test) (by simp [Run.init, hi])
    refine ⟨w', k2, ?_⟩
    have := all_run (cfg := ⟨false, 1, stat⟩) rfl (all_init i record name test base) k1
    simp only [List.nil_append] at this
    rw [k3]
    exact this
  have hlog : log = [] := by
    cases log with
    | nil => rfl
    | cons p log =>
      have hp := g0 p List.mem_cons_self
      obtain ⟨w, _, _, _, _, hsent, _⟩ := key p.1 tests[p.1].1 tests[p.1].2 (by rw [List.getElem?_eq_getElem hp])
      simp [sentBy] at hsent
  subst hlog
  simp only [List.map_nil, List.append_nil, Run.init, List.append_eq_nil_iff] at g1
  refine ⟨hlen, g1.2, by rw [g2, g1.1]; rfl, ?_⟩
  intro i name test hi
  obtain ⟨w, hw, ho⟩ := key i name test hi
  exact ⟨w, hw, ho⟩

/-- C50: at every moment of every run of a named test, the record file of thread `i` is the header followed by one block per iteration of this thread,
numbered from 0, labelled with the thread and the test, and holding the records of that iteration; only the iteration whose records are just being printed
is not there yet. The iterations are those the thread itself evaluated, in order; a last evaluation that fails is not among them. -/
theorem c50_named (stat : Bool) (base : Context F) (name : Str) (test : List (Expr F)) (t n : Nat) (l : List RunStep) (r : Run F)
    (h : NamedRun true stat base name test t n l r) (i : Nat) (hi : i < t) :
    ∃ w good hist c, r.workers[i]? = some w ∧ Iterations test base.clone good hist c ∧
      (executions true stat base name test t n l i = good ∨
       ∃ net, executions true stat base name test t n l i = good ++ [net] ∧ ∀ v s, runBlock net test ⟨c, [], []⟩ ≠ (.ok v, s)) ∧
      (w.file = some (iterationFile name i hist) ∨
       ∃ h0 o rs, hist = h0 ++ [(o, rs)] ∧ w.file = some (iterationFile name i h0) ∧ (w.pc = .write rs ∨ ∃ left, w.pc = .print rs left)) ∧
      (w.pc = .head ∨ w.pc = .done → w.number = hist.length ∧ w.file = some (iterationFile name i hist)) := by
  obtain ⟨_, log, received, _, _, _, g⟩ := named_worker h
  obtain ⟨w, hw, _, _, good, hist, c, hit, ha⟩ := g i hi
  refine ⟨w, good, hist, c, hw, hit, ?_⟩
  unfold NamedAt at ha
  cases hpc : w.pc with
  | head =>
    rw [hpc] at ha; obtain ⟨a1, _, a3, _, a5, _⟩ := ha
    exact ⟨Or.inl a1, Or.inl a5, fun _ => ⟨a3, a5⟩⟩
  | eval =>
    rw [hpc] at ha; obtain ⟨a1, _, a3, _, a5, _⟩ := ha
    exact ⟨Or.inl a1, Or.inl a5, fun h => by rcases h with h | h <;> cases h⟩
  | print rs left =>
    rw [hpc] at ha; obtain ⟨h0, o, pre, b1, _, a1, _, _, _, a5, _⟩ := ha
    exact ⟨Or.inl a1, Or.inr ⟨h0, o, rs, b1, a5, Or.inr ⟨left, rfl⟩⟩, fun h => by rcases h with h | h <;> cases h⟩
  | write rs =>
    rw [hpc] at ha; obtain ⟨h0, o, b1, a1, _, _, _, a5, _⟩ := ha
    exact ⟨Or.inl a1, Or.inr ⟨h0, o, rs, b1, a5, Or.inl rfl⟩, fun h => by rcases h with h | h <;> cases h⟩
  | send rs =>
    rw [hpc] at ha; obtain ⟨h0, o, b1, a1, _, _, _, a5, _⟩ := ha
    exact ⟨Or.inl a1, Or.inl a5, fun h => by rcases h with h | h <;> cases h⟩
  | done =>
    rw [hpc] at ha
    obtain ⟨a1, a2, _, hrest⟩ := ha
    refine ⟨?_, Or.inl a2, fun _ => ⟨a1, a2⟩⟩
    rcases hrest with ⟨b1, _⟩ | ⟨net, s, b1, _, b3⟩
    · exact Or.inl b1
    · refine Or.inr ⟨net, b1, ?_⟩
      intro v s' he
      rcases b3 with ⟨e, b3, _⟩ | ⟨b3, _⟩ <;> rw [he] at b3 <;> cases b3
  | stuck =>
    rw [hpc] at ha
    obtain ⟨a1, a2, _, net, s, b1, _, b3, _⟩ := ha
    refine ⟨Or.inr ⟨net, b1, ?_⟩, Or.inl a2, fun h => by rcases h with h | h <;> cases h⟩
    intro v s' he
    rw [he] at b3; cases b3

/-- C50: the same for a run of all tests: before the block of its only iteration is written the file is the header. -/
theorem c50_all (stat : Bool) (base : Context F) (tests : List (Str × List (Expr F))) (l : List RunStep) (r : Run F) (h : AllRun true stat base tests l r)
    (i : Nat) (name : Str) (test : List (Expr F)) (hi : tests[i]? = some (name, test)) :
    ∃ w, r.workers[i]? = some w ∧
      (w.file = some (iterationFile name i []) ∨
       (w.pc = .done ∧ ∃ net s, ((∃ v, runBlock net test ⟨base.clone, [], []⟩ = (.ok v, s)) ∨ ∃ e, runBlock net test ⟨base.clone, [], []⟩ = (.err e, s)) ∧
        w.file = some (iterationFile name i [(s.out, s.ctx.records)]))) ∧
      (w.pc = .done → ∃ net, evalNets ⟨false, 1, stat⟩ i (fresh true base name test) (inputs i true l) = [net] ∧
        (∀ v s, runBlock net test ⟨base.clone, [], []⟩ = (.ok v, s) → w.file = some (iterationFile name i [(s.out, s.ctx.records)]))) := by
  obtain ⟨_, _, _, g⟩ := all_worker h
  obtain ⟨w, hw, _, _, _, _, ha⟩ := g i name test hi
  refine ⟨w, hw, ?_⟩
  unfold AllAt at ha
  cases hpc : w.pc with
  | head => rw [hpc] at ha; exact ⟨Or.inl ha.2.2.1, (by simp)⟩
  | eval => rw [hpc] at ha; exact ⟨Or.inl ha.2.2.1, (by simp)⟩
  | print rs left => rw [hpc] at ha; obtain ⟨net, _, a2, _⟩ := ha; exact ⟨Or.inl a2, (by simp)⟩
  | write rs => rw [hpc] at ha; obtain ⟨net, _, a2, _⟩ := ha; exact ⟨Or.inl a2, (by simp)⟩
  | send rs => rw [hpc] at ha; exact ha.elim
  | done =>
    rw [hpc] at ha
    obtain ⟨net, s, a1, ⟨b1, b2, _⟩ | ⟨b1, b2⟩⟩ := ha
    · exact ⟨Or.inl b2, fun _ => ⟨net, a1, fun v s' he => by rw [b1] at he; cases he⟩⟩
    · refine ⟨Or.inr ⟨rfl, net, s, ?_, b1⟩, fun _ => ⟨net, a1, fun v s' he => ?_⟩⟩
      · rcases b2 with ⟨v, b2, _⟩ | ⟨e, b2, _⟩
        · exact Or.inl ⟨v, b2⟩
        · exact Or.inr ⟨e, b2⟩
      · rcases b2 with ⟨v, b2, _⟩ | ⟨e, b2, _⟩
        · rw [b2] at he; cases he; exact b1
        · rw [b2] at he; cases he
  | stuck => rw [hpc] at ha; obtain ⟨net, s, _, _, a2, _⟩ := ha; exact ⟨Or.inl a2, (by simp)⟩

/-- C50: a reader finds in such a file exactly the records of the iterations, in order, with their labels. -/
theorem c50_readable (name : Str) (i : Nat) (hist : List (Str × List Record)) (hf : ∀ b ∈ hist.zipIdx.map (fun p => (⟨p.1.2, name, i, p.2⟩ : Batch)), BatchFits b) :
    readFile .counted (iterationFile name i hist) = some (filesData (hist.zipIdx.map fun p => ⟨p.1.2, name, i, p.2⟩)) :=
  c32_recover_file _ hf

theorem decimal_zeros (k : Nat) (s : Str) : decimal (List.replicate k '0' ++ s) = decimal s := by
  induction k with
  | zero => rfl
  | succ k ih => rw [List.replicate_succ, List.cons_append, decimal, ih]; simp

/-- C50: the threads of a run write to different files. -/
theorem c50_distinct_files (pod : Str) (i j : Nat) (h : recordFile pod i = recordFile pod j) : i = j := by
  have h := List.append_cancel_left h
  have : decimal (pad6 i) = decimal (pad6 j) := by rw [h]
  simpa [pad6, decimal_zeros, decimal_natStr] using this

/-- Concrete case: thread 12 of pod `p`. -/
example : recordFile c!"p" 12 = c!"p000012" := rfl

/-! ## C52 -/

theorem evalNets_stopped {cfg : Config} (hn : cfg.named = true) (i : Nat) {ins : List (Bool × Net)} : ∀ {w : Worker F},
    (∀ x ∈ ins, x.1 = false) → (evalNets cfg i w ins).length ≤ (if w.pc = .eval then 1 else 0) ∧
    ∀ w' o s, workerRun cfg i w ins = some (w', o, s) → w'.number ≤ w.number + 1 ∧ (w.pc = .head → w'.number = w.number) := by
  have key : ∀ (ins : List (Bool × Net)) (w : Worker F), (∀ x ∈ ins, x.1 = false) →
      (evalNets cfg i w ins).length ≤ (if w.pc = .eval then 1 else 0) ∧
      ∀ w' o s, workerRun cfg i w ins = some (w', o, s) → w'.number ≤ w.number + (if w.pc = .head ∨ w.pc = .done ∨ w.pc = .stuck then 0 else 1) := by
    intro ins
    induction ins with
    | nil =>
      intro w _
      refine ⟨by simp [evalNets], ?_⟩
      intro w' o s h
      cases h
      omega
    | cons x ins ih =>
      intro w hx
      obtain ⟨cont, net⟩ := x
      have hc : cont = false := hx (cont, net) List.mem_cons_self
      subst hc
      simp only [evalNets, workerRun]
      cases hst : w.step cfg false i net with
      | none => refine ⟨by simp, ?_⟩; intro w' o s h; cases h
      | some p =>
        obtain ⟨w1, e⟩ := p
        obtain ⟨i1, i2⟩ := ih w1 fun y hy => hx y (List.mem_cons_of_mem _ hy)
        have hpc : w1.pc ≠ .eval ∧ w1.number + (if w1.pc = .head ∨ w1.pc = .done ∨ w1.pc = .stuck then 0 else 1) ≤
            w.number + (if w.pc = .head ∨ w.pc = .done ∨ w.pc = .stuck then 0 else 1) := by
          unfold Worker.step at hst
          cases hp : w.pc with
          | head => rw [hp] at hst; simp [hn] at hst; rw [← hst.1]; simp
          | eval =>
            rw [hp] at hst
            dsimp only at hst
            split at hst
            · simp at hst; rw [← hst.1]; simp
            · simp [hn] at hst; rw [← hst.1]; simp
            · simp at hst; rw [← hst.1]; simp
            · simp at hst; rw [← hst.1]; simp
          | print rs left => rw [hp] at hst; cases left <;> simp at hst <;> rw [← hst.1] <;> simp
          | write rs => rw [hp] at hst; simp [hn] at hst; rw [← hst.1]; simp
          | send rs => rw [hp] at hst; simp at hst; rw [← hst.1]; simp
          | done => rw [hp] at hst; cases hst
          | stuck => rw [hp] at hst; cases hst
        rw [if_neg hpc.1] at i1
        refine ⟨?_, ?_⟩
        · rw [List.length_append]
          by_cases hp : w.pc = .eval
          · rw [if_pos hp, if_pos hp, List.length_singleton]; omega
          · rw [if_neg hp, if_neg hp, List.length_nil]; omega
        · intro w' o s h
          simp only [Option.map_eq_some_iff] at h
          obtain ⟨⟨w2, o2, s2⟩, h2, h3⟩ := h
          cases h3
          exact Nat.le_trans (i2 _ _ _ h2) hpc.2
  intro w hx
  obtain ⟨k1, k2⟩ := key ins w hx
  refine ⟨k1, ?_⟩
  intro w' o s h
  have hm : w.number ≤ w'.number := by
    clear k1 k2
    have mono : ∀ (ins : List (Bool × Net)) (w w' : Worker F) (o : List Str) (s : List (List Record)), workerRun cfg i w ins = some (w', o, s) → w.number ≤ w'.number := by
      intro ins
      induction ins with
      | nil => intro w w' o s h; cases h; exact Nat.le_refl _
      | cons x ins ih =>
        intro w w' o s h
        obtain ⟨cont, net⟩ := x
        simp only [workerRun] at h
        cases hst : w.step cfg cont i net with
        | none => rw [hst] at h; cases h
        | some p =>
          obtain ⟨w1, e⟩ := p
          rw [hst] at h
          simp only [Option.map_eq_some_iff] at h
          obtain ⟨⟨w2, o2, s2⟩, h2, h3⟩ := h
          cases h3
          refine Nat.le_trans ?_ (ih _ _ _ _ h2)
          unfold Worker.step at hst
          cases hp : w.pc with
          | head => rw [hp] at hst; simp only [hn, if_true] at hst; split at hst <;> (cases hst; exact Nat.le_refl _)
          | eval =>
            rw [hp] at hst
            dsimp only at hst
            split at hst
            · cases hst; exact Nat.le_refl _
            · simp [hn] at hst; rw [← hst.1]; exact Nat.le_refl _
            · cases hst; exact Nat.le_refl _
            · cases hst; exact Nat.le_refl _
          | print rs left => rw [hp] at hst; cases left <;> (cases hst; exact Nat.le_refl _)
          | write rs => rw [hp] at hst; simp [hn] at hst; rw [← hst.1]; exact Nat.le_refl _
          | send rs => rw [hp] at hst; cases hst; exact Nat.le_succ _
          | done => rw [hp] at hst; cases hst
          | stuck => rw [hp] at hst; cases hst
    exact mono _ _ _ _ _ h
  have := k2 _ _ _ h
  refine ⟨by split at this <;> omega, ?_⟩
  intro hp
  rw [if_pos (Or.inl hp)] at this
  omega

theorem inputs_false (i : Nat) (l : List RunStep) : ∀ x ∈ inputs i false l, x.1 = false := by
  induction l with
  | nil => intro x hx; cases hx
  | cons s l ih =>
    cases s with
    | work j net =>
      intro x hx
      simp only [inputs] at hx
      split at hx
      · rcases List.mem_cons.1 hx with rfl | hx
        · rfl
        · exact ih x hx
      · exact ih x hx
    | stop => exact ih
    | drop => exact ih
    | collect => exact ih

/-- C52: in every state in which the stop flag is cleared and under every schedule from there, a thread that has not passed the loop condition starts no
evaluation and completes no further iteration, one that has passed it starts exactly the one evaluation it had decided on, and every thread completes at
most one iteration more. -/
theorem c52_no_new_iteration (cfg : Config) (hn : cfg.named = true) (r r' : Run F) (l : List RunStep) (h : r.run cfg l = some r') (hc : r.continuous = false)
    (i : Nat) (w : Worker F) (hw : r.workers[i]? = some w) :
    (evalNets cfg i w (inputs i r.continuous l)).length ≤ (if w.pc = .eval then 1 else 0) ∧
    ∃ w', r'.workers[i]? = some w' ∧ w'.number ≤ w.number + 1 ∧ (w.pc = .head → w'.number = w.number) := by
  obtain ⟨_, log, received, _, _, _, g⟩ := run_project h
  obtain ⟨w', o, k1, k2, _⟩ := g i w hw
  rw [hc] at k1 ⊢
  obtain ⟨e1, e2⟩ := evalNets_stopped (ins := inputs i false l) hn i (w := w) (inputs_false i l)
  exact ⟨e1, w', k2, e2 _ _ _ k1⟩

/-- C52: the stop flag stays cleared. -/
theorem c52_stays_stopped (cfg : Config) (l : List RunStep) : ∀ (r r' : Run F), r.run cfg l = some r' → r.continuous = false → r'.continuous = false := by
  induction l with
  | nil => intro r r' h hc; cases h; exact hc
  | cons s l ih =>
    intro r r' h hc
    rw [Run.run, Option.bind_eq_some_iff] at h
    obtain ⟨r1, h1, h2⟩ := h
    refine ih r1 r' h2 ?_
    cases s with
    | work i net =>
      simp only [Run.step] at h1
      split at h1
      · cases h1
      · split at h1
        · cases h1
        · cases h1; exact hc
    | stop => cases h1; rfl
    | drop => simp only [Run.step] at h1; split at h1 <;> cases h1; exact hc
    | collect =>
      simp only [Run.step] at h1
      split at h1
      · cases h1
      · split at h1
        · split at h1
          · cases h1; exact hc
          · split at h1 <;> cases h1; exact hc
        · cases h1; exact hc

/-- C52: an iteration running when the flag is cleared is still recorded and counted when its thread ends: whatever the schedule, stopped or not, a
thread that has ended has in its file and has sent to the statistics every iteration it evaluated successfully. -/
theorem c52_still_recorded (record : Bool) (base : Context F) (name : Str) (test : List (Expr F)) (t n : Nat) (l : List RunStep) (r : Run F)
    (h : NamedRun record true base name test t n l r) :
    ∃ (log : List (Nat × List Record)) (received : List (List Record)), received ++ r.channel = log.map Prod.snd ∧ r.stats = received.foldl addBatch [] ∧
      ∀ i w, i < t → r.workers[i]? = some w → w.pc = .done → ∃ good hist c, Iterations test base.clone good hist c ∧
        (executions record true base name test t n l i = good ∨ ∃ net, executions record true base name test t n l i = good ++ [net] ∧
          ∀ v s, runBlock net test ⟨c, [], []⟩ ≠ (.ok v, s)) ∧
        w.file = (if record then some (iterationFile name i hist) else none) ∧ sentBy i log = hist.map Prod.snd := by
  obtain ⟨_, log, received, _, g1, g2, g⟩ := named_worker h
  refine ⟨log, received, g1, g2, ?_⟩
  intro i w hi hw hpc
  obtain ⟨w', hw', _, _, good, hist, c, hit, ha⟩ := g i hi
  rw [hw] at hw'
  cases hw'
  unfold NamedAt at ha
  rw [hpc] at ha
  obtain ⟨a1, a2, a3, a4⟩ := ha
  refine ⟨good, hist, c, hit, ?_, a2, by simpa [sentFor] using a3⟩
  rcases a4 with ⟨b1, _⟩ | ⟨net, s, b1, _, b3⟩
  · exact Or.inl b1
  · refine Or.inr ⟨net, b1, ?_⟩
    intro v s' he
    rcases b3 with ⟨e, b3, _⟩ | ⟨b3, _⟩ <;> rw [he] at b3 <;> cases b3

/-- Concrete case: a thread past the loop condition when the flag is cleared completes this iteration and then ends, with 1 of 5 iterations. -/
example (base : Context F) (net : Net) :
    ∃ l r w, NamedRun false false base c!"t" [] 1 5 l r ∧ r.continuous = false ∧ r.workers[0]? = some w ∧ w.pc = .done ∧ w.number = 1 :=
  ⟨[.work 0 net, .stop, .work 0 net, .work 0 net, .work 0 net, .work 0 net, .work 0 net], _, _, rfl, rfl, rfl, rfl, rfl⟩

/-! ## C51 -/

theorem addBatch_addAll (rs : List Record) (s : Stats) : addBatch s rs = addAll (rs.map fun r => (r.name, r.time.total / 1000000)) s := by
  simp [addBatch, addAll, List.foldl_map]

theorem addBatches (bs : List (List Record)) : ∀ s : Stats, bs.foldl addBatch s = addAll (bs.flatMap fun rs => rs.map fun r => (r.name, r.time.total / 1000000)) s := by
  induction bs with
  | nil => intro s; rfl
  | cons b bs ih => intro s; rw [List.foldl_cons, ih, addBatch_addAll]; simp [addAll, List.foldl_append]

/-- A log is a permutation of its parts by thread. -/
theorem log_perm (t : Nat) : ∀ (log : List (Nat × List Record)), (∀ p ∈ log, p.1 < t) → (log.map Prod.snd).Perm ((List.range t).flatMap fun i => sentBy i log) := by
  induction t with
  | zero =>
    intro log h
    cases log with
    | nil => simp
    | cons p log => exact absurd (h p List.mem_cons_self) (Nat.not_lt_zero _)
  | succ t ih =>
    intro log h
    have h1 := ih (log.filter fun p => !(p.1 == t)) (by
      intro p hp
      obtain ⟨h1, h2⟩ := List.mem_filter.1 hp
      have := h p h1
      simp at h2
      omega)
    have e : (List.range t).flatMap (fun i => sentBy i (log.filter fun p => !(p.1 == t))) = (List.range t).flatMap (fun i => sentBy i log) := by
      rw [List.flatMap_def, List.flatMap_def]
      congr 1
      apply List.map_congr_left
      intro i hi
      have hi := List.mem_range.1 hi
      unfold sentBy
      rw [List.filter_filter]
      congr 1
      apply List.filter_congr
      intro p _
      by_cases hp : p.1 = i
      · subst hp; simp; omega
      · simp [hp]
    rw [e] at h1
    rw [List.range_succ, List.flatMap_append]
    simp only [List.flatMap_cons, List.flatMap_nil, List.append_nil]
    have h2 : (log.map Prod.snd).Perm (((log.filter fun p => !(p.1 == t)).map Prod.snd) ++ sentBy t log) := by
      unfold sentBy
      rw [← List.map_append]
      refine List.Perm.map _ ?_
      refine (List.filter_append_perm (fun p => p.1 == t) log).symm.trans ?_
      exact List.perm_append_comm
    exact h2.trans (h1.append_right _)

/-- The statistics thread ends only after all senders are gone and nothing is left in the channel; then its text is the last it prints. -/
structure CollectorOk (cfg : Config) (r : Run F) : Prop where
  running : r.collector = .running → outOf none r.out = []
  ended : r.collector = .done → cfg.stat = true → r.channel = [] ∧ r.disconnected cfg = true ∧ outOf none r.out = [r.stats.text F]

theorem outOf_none_worker (i : Nat) (e : List Str) (out : List (Option Nat × Str)) : outOf none (out ++ e.map fun t => (some i, t)) = outOf none out := by
  unfold outOf
  rw [List.filter_append, List.map_append]
  have e0 : (e.map fun t => (some i, t)).filter (fun p => p.1 == none) = [] :=
    List.filter_eq_nil_iff.2 (by intro p hp; obtain ⟨b, _, rfl⟩ := List.mem_map.1 hp; simp)
  rw [e0]; simp

theorem collector_step {cfg : Config} {r r' : Run F} {s : RunStep} (hn : cfg.named = true) (h : CollectorOk cfg r) (hs : r.step cfg s = some r') :
    CollectorOk cfg r' := by
  cases s with
  | work i net =>
    simp only [Run.step] at hs
    split at hs
    · cases hs
    · rename_i w hw
      split at hs
      · cases hs
      · rename_i w' e he
        cases hs
        refine ⟨fun hc => by dsimp only; rw [outOf_none_worker]; exact h.running hc, ?_⟩
        intro hc hst
        obtain ⟨h1, h2, h3⟩ := h.ended hc hst
        exfalso
        simp only [Run.disconnected, hn, Bool.not_true, Bool.false_or, Bool.and_eq_true, Run.workersDone] at h2
        have := List.all_eq_true.1 h2.2 w (List.mem_of_getElem? hw)
        simp only [beq_iff_eq] at this
        simp only [Worker.step, this] at he
        cases he
  | stop => cases hs; exact ⟨h.running, h.ended⟩
  | drop =>
    simp only [Run.step] at hs
    split at hs
    · rename_i hm
      cases hs
      refine ⟨h.running, ?_⟩
      intro hc hst
      obtain ⟨h1, h2, h3⟩ := h.ended hc hst
      simp only [Run.disconnected, hm] at h2
      cases h2
    · cases hs
  | collect =>
    simp only [Run.step] at hs
    split at hs
    · cases hs
    · rename_i hcol
      split at hs
      · rename_i hst
        split at hs
        · cases hs
          exact ⟨h.running, fun hc => absurd hc (by rw [hcol]; exact fun h => by cases h)⟩
        · rename_i hch
          split at hs
          · rename_i hd
            cases hs
            refine ⟨fun hc => (by cases hc), fun _ _ => ⟨hch, hd, ?_⟩⟩
            have := h.running hcol
            unfold outOf at this ⊢
            rw [List.filter_append, List.map_append, this]
            simp
          · cases hs
      · rename_i hst
        cases hs
        exact ⟨fun hc => (by cases hc), fun _ hst' => absurd hst' hst⟩

theorem collector_run {cfg : Config} (hn : cfg.named = true) {l : List RunStep} : ∀ {r r' : Run F}, CollectorOk cfg r → r.run cfg l = some r' → CollectorOk cfg r' := by
  induction l with
  | nil => intro r r' h hr; cases hr; exact h
  | cons s l ih =>
    intro r r' h hr
    rw [Run.run, Option.bind_eq_some_iff] at hr
    obtain ⟨r1, h1, h2⟩ := hr
    exact ih (collector_step hn h h1) h2

/-- C51 for a named test (missing: without a test name nothing is sent to the statistics, see `c51_false_all_tests`): under every schedule the statistics
thread ends only after every test thread has ended and main has dropped its sender; what it prints then, and only once, are statistics that cover every
record of every iteration evaluated successfully by any thread exactly once: they are those of all these records taken thread by thread. So they do
not depend on the order in which the threads' batches arrived. -/
theorem c51_complete_partial (record : Bool) (base : Context F) (name : Str) (test : List (Expr F)) (t n : Nat) (l : List RunStep) (r : Run F)
    (h : NamedRun record true base name test t n l r) (hc : r.collector = .done) :
    r.finished = true ∧ outOf none r.out = [r.stats.text F] ∧
    ∃ hists : Nat → List (Str × List Record),
      (∀ i, i < t → ∃ good c, Iterations test base.clone good (hists i) c ∧
        (executions record true base name test t n l i = good ∨ ∃ net, executions record true base name test t n l i = good ++ [net] ∧
          ∀ v s, runBlock net test ⟨c, [], []⟩ ≠ (.ok v, s))) ∧
      r.stats.Perm (addAll ((List.range t).flatMap fun i => samples (hists i)) []) ∧
      ∀ k, amGet k r.stats = amGet k (addAll ((List.range t).flatMap fun i => samples (hists i)) []) := by
  have hcol := collector_run (cfg := ⟨true, n / t, true⟩) rfl (r := Run.init (List.replicate t (fresh record base name test))) ⟨fun _ => rfl, fun hd => by cases hd⟩ h
  obtain ⟨h1, h2, h3⟩ := hcol.ended hc rfl
  simp only [Run.disconnected, Bool.not_true, Bool.false_or, Bool.and_eq_true] at h2
  obtain ⟨_, log, received, g0, g1, g2, g⟩ := named_worker h
  rw [h1, List.append_nil] at g1
  have key : ∀ i, ∃ hist : List (Str × List Record), i < t → sentBy i log = hist.map Prod.snd ∧ ∃ good c, Iterations test base.clone good hist c ∧
        (executions record true base name test t n l i = good ∨ ∃ net, executions record true base name test t n l i = good ++ [net] ∧
          ∀ v s, runBlock net test ⟨c, [], []⟩ ≠ (.ok v, s)) := by
    intro i
    by_cases hi : i < t
    · obtain ⟨w, hw, _, _, good, hist, c, hit, ha⟩ := g i hi
      have hpc : w.pc = .done := by
        have := List.all_eq_true.1 h2.2 w (List.mem_of_getElem? hw)
        simpa using this
      unfold NamedAt at ha
      rw [hpc] at ha
      obtain ⟨a1, a2, a3, a4⟩ := ha
      refine ⟨hist, fun _ => ⟨by simpa [sentFor] using a3, good, c, hit, ?_⟩⟩
      rcases a4 with ⟨b1, _⟩ | ⟨net, s, b1, _, b3⟩
      · exact Or.inl b1
      · refine Or.inr ⟨net, b1, ?_⟩
        intro v s' he
        rcases b3 with ⟨e, b3, _⟩ | ⟨b3, _⟩ <;> rw [he] at b3 <;> cases b3
    · exact ⟨[], fun h => absurd h hi⟩
  obtain ⟨hists, hh⟩ := Classical.axiomOfChoice key
  have hp : ((log.map Prod.snd).flatMap fun rs => rs.map fun r => (r.name, r.time.total / 1000000)).Perm ((List.range t).flatMap fun i => samples (hists i)) := by
    refine ((log_perm t log g0).flatMap_right _).trans ?_
    rw [List.flatMap_assoc]
    have e : ∀ L : List Nat, (∀ i ∈ L, i < t) → L.flatMap (fun i => (sentBy i log).flatMap fun rs => rs.map fun r => (r.name, r.time.total / 1000000)) =
        L.flatMap fun i => samples (hists i) := by
      intro L
      induction L with
      | nil => intro _; rfl
      | cons i L ih =>
        intro hL
        rw [List.flatMap_cons, List.flatMap_cons, ih fun j hj => hL j (List.mem_cons_of_mem _ hj), (hh i (hL i List.mem_cons_self)).1]
        congr 1
        simp [samples, List.flatMap_map]
    rw [e _ fun i hi => List.mem_range.1 hi]
  have hs : r.stats = addAll ((log.map Prod.snd).flatMap fun rs => rs.map fun r => (r.name, r.time.total / 1000000)) [] := by
    rw [g2, g1, addBatches]
  refine ⟨?_, h3, hists, fun i hi => (hh i hi).2, ?_, ?_⟩
  · simp only [Run.finished, h2.2, h2.1, hc]; rfl
  · rw [hs]; exact c34_order_entries _ _ hp
  · intro k; rw [hs]; exact c34_order _ _ hp k

/-- C51: no deadlock: in every state in which the program has not finished and no evaluation runs for ever, some thread can move. -/
theorem c51_no_deadlock (cfg : Config) (r : Run F) (hf : r.finished = false) (hs : ∀ w ∈ r.workers, w.pc ≠ .stuck) (net : Net) :
    ∃ s r', s ≠ .stop ∧ (∀ i n, s = .work i n → n = net) ∧ r.step cfg s = some r' := by
  by_cases hd : r.workersDone = true
  · by_cases hm : r.mainSender = true
    · exact ⟨.drop, _, (by simp), (by simp), by simp only [Run.step, hm, if_true]; rfl⟩
    · have hm : r.mainSender = false := by simpa using hm
      have hc : r.collector = .running := by
        cases hc : r.collector with
        | running => rfl
        | done => simp [Run.finished, hd, hm, hc] at hf
      cases hst : cfg.stat with
      | false => exact ⟨.collect, _, (by simp), (by simp), by simp only [Run.step, hc, hst]; rfl⟩
      | true =>
        cases hch : r.channel with
        | nil =>
          have hdis : r.disconnected cfg = true := by simp [Run.disconnected, hd, hm]
          exact ⟨.collect, _, (by simp), (by simp), by simp only [Run.step, hc, hst, hch, if_true, hdis]; rfl⟩
        | cons b q => exact ⟨.collect, _, (by simp), (by simp), by simp only [Run.step, hc, hst, hch, if_true]; rfl⟩
  · have : ∃ w ∈ r.workers, w.pc ≠ .done := by
      simp only [Run.workersDone, List.all_eq_true, beq_iff_eq] at hd
      exact Classical.byContradiction fun hn => hd fun w hw => Classical.byContradiction fun hp => hn ⟨w, hw, hp⟩
    obtain ⟨w, hw, hp⟩ := this
    obtain ⟨i, hi⟩ := List.mem_iff_getElem?.1 hw
    have : ∃ p, w.step cfg r.continuous i net = some p := by
      unfold Worker.step
      have := hs w hw
      split
      · split
        · split <;> exact ⟨_, rfl⟩
        · exact ⟨_, rfl⟩
      · split
        · exact ⟨_, rfl⟩
        · split <;> exact ⟨_, rfl⟩
        · exact ⟨_, rfl⟩
        · exact ⟨_, rfl⟩
      · exact ⟨_, rfl⟩
      · exact ⟨_, rfl⟩
      · split <;> exact ⟨_, rfl⟩
      · exact ⟨_, rfl⟩
      · rename_i h; exact absurd h hp
      · rename_i h; exact absurd h this
    obtain ⟨⟨w', e⟩, he⟩ := this
    exact ⟨.work i net, _, (by simp), (by intro j n h; cases h; rfl), by simp only [Run.step, hi, he]; rfl⟩

/-- How many times a worker can still pass the loop condition, doubled; odd inside an iteration. -/
def workerA (cfg : Config) (w : Worker F) : Nat :=
  if cfg.named then
    match w.pc with
    | .head => 2 * (cfg.maximum - w.number)
    | .done => 0
    | .stuck => 0
    | _ => 2 * (cfg.maximum - w.number - 1) + 1
  else
    match w.pc with
    | .send _ => 1
    | _ => 0

/-- How far a worker is from the end of the iteration. -/
def workerB (w : Worker F) : Nat :=
  match w.pc with
  | .head => 5
  | .eval => 4
  | .print _ _ => 3
  | .write _ => 2
  | .send _ => 1
  | _ => 0

/-- How many records it has still to print. -/
def workerC (w : Worker F) : Nat :=
  match w.pc with
  | .print _ left => left.length
  | _ => 0

theorem worker_decreases {cfg : Config} {cont : Bool} {i : Nat} {net : Net} {w w' : Worker F} {e : Effect} (h : w.step cfg cont i net = some (w', e)) :
    workerA cfg w' < workerA cfg w ∨ (workerA cfg w' = workerA cfg w ∧ (workerB w' < workerB w ∨ (workerB w' = workerB w ∧ workerC w' < workerC w))) := by
  unfold Worker.step at h
  cases hp : w.pc with
  | head =>
    rw [hp] at h
    dsimp only at h
    cases hn : cfg.named with
    | false =>
      simp [hn] at h; rw [← h.1]; simp [workerA, workerB, hn, hp]
    | true =>
      simp only [hn, if_true] at h
      split at h
      · rename_i hc
        simp at hc
        cases h
        left; simp [workerA, hn, hp]; omega
      · cases h
        simp [workerA, workerB, hn, hp]; omega
  | eval =>
    rw [hp] at h
    dsimp only at h
    split at h
    · cases h; right; simp [workerA, workerB, hp]
    · split at h <;> cases h
      · simp [workerA, workerB, hp, *]
      · right; simp [workerA, workerB, hp, *]
    · cases h; cases hn : cfg.named <;> simp [workerA, workerB, hp, hn]
    · cases h; cases hn : cfg.named <;> simp [workerA, workerB, hp, hn]
  | print rs left =>
    rw [hp] at h
    cases left with
    | nil => cases h; right; simp [workerA, workerB, hp]
    | cons r left => cases h; right; simp [workerA, workerB, workerC, hp]
  | write rs =>
    rw [hp] at h
    dsimp only at h
    split at h <;> cases h
    · right; simp [workerA, workerB, hp, *]
    · right; simp [workerA, workerB, hp, *]
  | send rs =>
    rw [hp] at h
    cases h
    cases hn : cfg.named with
    | false => left; simp [workerA, hp, hn]
    | true => left; simp [workerA, hp, hn]; omega
  | done => rw [hp] at h; cases h
  | stuck => rw [hp] at h; cases h

theorem sum_set {α : Type} (f : α → Nat) {l : List α} {i : Nat} {a : α} (b : α) (h : l[i]? = some a) :
    ((l.set i b).map f).sum + f a = (l.map f).sum + f b := by
  induction l generalizing i with
  | nil => cases h
  | cons x l ih =>
    cases i with
    | zero => cases h; simp; omega
    | succ i =>
      have := ih (i := i) (by simpa using h)
      simp only [List.set_cons_succ, List.map_cons, List.sum_cons]
      omega

/-- What a step decreases, compared lexicographically. -/
def Run.rank (cfg : Config) (r : Run F) : Nat × Nat × Nat × Nat :=
  ((r.workers.map (workerA cfg)).sum, (r.workers.map workerB).sum, (r.workers.map workerC).sum,
   r.channel.length + (if r.mainSender then 1 else 0) + (if r.collector = .running then 1 else 0) + (if r.continuous then 1 else 0))

/-- A step that changes something; only clearing the stop flag again does not. -/
def Run.moves (cfg : Config) (r r' : Run F) : Prop := ∃ s, r.step cfg s = some r' ∧ (s = .stop → r.continuous = true)

theorem rank_decreases {cfg : Config} {r r' : Run F} (h : r.moves cfg r') :
    (Prod.lex Nat.lt_wfRel (Prod.lex Nat.lt_wfRel (Prod.lex Nat.lt_wfRel Nat.lt_wfRel))).rel (r'.rank cfg) (r.rank cfg) := by
  obtain ⟨s, hs, hstop⟩ := h
  have last : ∀ {r' : Run F}, r'.workers = r.workers → (r'.rank cfg).2.2.2 < (r.rank cfg).2.2.2 →
      (Prod.lex Nat.lt_wfRel (Prod.lex Nat.lt_wfRel (Prod.lex Nat.lt_wfRel Nat.lt_wfRel))).rel (r'.rank cfg) (r.rank cfg) := by
    intro r' h1 h2
    unfold Run.rank at h2 ⊢
    rw [h1]
    exact Prod.Lex.right _ (Prod.Lex.right _ (Prod.Lex.right _ h2))
  cases s with
  | work i net =>
    simp only [Run.step] at hs
    split at hs
    · cases hs
    · rename_i w hw
      split at hs
      · cases hs
      · rename_i w' e he
        cases hs
        have sa := sum_set (workerA cfg) w' hw
        have sb := sum_set workerB w' hw
        have sc := sum_set workerC w' hw
        unfold Run.rank
        dsimp only
        rcases worker_decreases he with h1 | ⟨h1, h2 | ⟨h2, h3⟩⟩
        · exact Prod.Lex.left _ _ (show _ < _ by omega)
        · rw [show ((r.workers.set i w').map (workerA cfg)).sum = (r.workers.map (workerA cfg)).sum by omega]
          exact Prod.Lex.right _ (Prod.Lex.left _ _ (show _ < _ by omega))
        · rw [show ((r.workers.set i w').map (workerA cfg)).sum = (r.workers.map (workerA cfg)).sum by omega,
            show ((r.workers.set i w').map workerB).sum = (r.workers.map workerB).sum by omega]
          exact Prod.Lex.right _ (Prod.Lex.right _ (Prod.Lex.left _ _ (show _ < _ by omega)))
  | stop =>
    cases hs
    refine last rfl ?_
    simp [Run.rank, hstop rfl]
  | drop =>
    simp only [Run.step] at hs
    split at hs
    · rename_i hm
      cases hs
      refine last rfl ?_
      simp [Run.rank, hm]
    · cases hs
  | collect =>
    simp only [Run.step] at hs
    split at hs
    · cases hs
    · rename_i hc
      split at hs
      · split at hs
        · rename_i b q hch
          cases hs
          refine last rfl ?_
          simp [Run.rank, hc, hch]
        · rename_i hch
          split at hs
          · cases hs
            refine last rfl ?_
            simp [Run.rank, hc, hch]
          · cases hs
      · cases hs
        refine last rfl ?_
        simp [Run.rank, hc]

/-- C51: there is no endless run: steps that change something cannot go on for ever, from any state and under any schedule. -/
theorem c51_no_endless_run (cfg : Config) : WellFounded (fun r' r : Run F => r.moves cfg r') :=
  Subrelation.wf (fun h => rank_decreases h) (InvImage.wf (Run.rank cfg) (Prod.lex Nat.lt_wfRel (Prod.lex Nat.lt_wfRel (Prod.lex Nat.lt_wfRel Nat.lt_wfRel))).wf)

theorem run_not_stuck {cfg : Config} {net : Net} (hb : BodiesParse F net) {r r' : Run F} {s : RunStep} (hs : r.step cfg s = some r')
    (hnet : ∀ i n, s = .work i n → n = net) (h : ∀ w ∈ r.workers, w.pc ≠ .stuck) : ∀ w ∈ r'.workers, w.pc ≠ .stuck := by
  cases s with
  | work i net' =>
    have := hnet i net' rfl
    subst this
    simp only [Run.step] at hs
    split at hs
    · cases hs
    · rename_i w hw
      split at hs
      · cases hs
      · rename_i w' e he
        cases hs
        intro x hx
        rcases List.mem_or_eq_of_mem_set hx with hx | hx
        · exact h x hx
        · subst hx
          unfold Worker.step at he
          split at he
          · split at he
            · split at he <;> (cases he; simp)
            · cases he; simp
          · split at he
            · cases he; simp
            · split at he <;> (cases he; simp)
            · cases he; simp
            · rename_i s hr
              have := c13_terminates net' w.test ⟨w.ctx, [], []⟩ hb
              rw [hr] at this
              exact absurd rfl this
          · cases he; simp
          · cases he; simp
          · split at he <;> (cases he; simp)
          · cases he; simp
          · cases he
          · cases he
  | stop => cases hs; exact h
  | drop => simp only [Run.step] at hs; split at hs <;> cases hs; exact h
  | collect =>
    simp only [Run.step] at hs
    split at hs
    · cases hs
    · split at hs
      · split at hs
        · cases hs; exact h
        · split at hs <;> cases hs; exact h
      · cases hs; exact h

/-- C51: every state in which no evaluation runs for ever can be continued to the end of the program; by `c51_no_endless_run` every way of continuing it
that does not stop early gets there. -/
theorem c51_can_finish (cfg : Config) (net : Net) (hb : BodiesParse F net) (r : Run F) (hs : ∀ w ∈ r.workers, w.pc ≠ .stuck) :
    ∃ l r', r.run cfg l = some r' ∧ r'.finished = true := by
  induction r using (c51_no_endless_run (F := F) cfg).induction with
  | h r ih =>
    cases hf : r.finished with
    | true => exact ⟨[], r, rfl, hf⟩
    | false =>
      obtain ⟨s, r1, h1, h2, h3⟩ := c51_no_deadlock cfg r hf hs net
      obtain ⟨l, r', h4, h5⟩ := ih r1 ⟨s, h3, fun h => absurd h h1⟩ (run_not_stuck hb h3 h2 hs)
      exact ⟨s :: l, r', by simp only [Run.run, h3, Option.bind_some]; exact h4, h5⟩

/-- C51: a finished program takes no further step that changes something but the stop flag. -/
theorem c51_finished_final (cfg : Config) (r r' : Run F) (s : RunStep) (hf : r.finished = true) (h : r.step cfg s = some r') : s = .stop := by
  simp only [Run.finished, Bool.and_eq_true, Bool.not_eq_true', beq_iff_eq, Run.workersDone, List.all_eq_true] at hf
  obtain ⟨⟨h1, h2⟩, h3⟩ := hf
  cases s with
  | stop => rfl
  | work i net =>
    simp only [Run.step] at h
    split at h
    · cases h
    · rename_i w hw
      have := h1 w (List.mem_of_getElem? hw)
      simp only [Worker.step, this] at h
      cases h
  | drop => simp [Run.step, h2] at h
  | collect => simp [Run.step, h3] at h

/-- A network on which every connection is refused. -/
def refusing (k : Clocks) : Net := ⟨fun _ _ => .refused .tcpConnectFailed k, fun _ => none⟩

/-- Variables and requests of a program that declares one request without asserts. -/
def pingContext : Context F := ⟨[], [(c!"ping", (c!"GET http://localhost/", []))], []⟩

/-- The record of calling it on the refusing network. -/
def pingRecord (k : Clocks) : Record :=
  ⟨c!"ping", .default k.sys0, (Request.ofStr (fun _ => none) c!"GET http://localhost/").1, .default, [], c!"tcp connect failed"⟩

/-- C51 is false: in a run of all tests with `--stat`, a test sends a request, its record is printed, the program finishes, and the statistics are empty. -/
theorem c51_false_all_tests (k : Clocks) : ∃ l, ∃ r : Run F, AllRun false true pingContext [(c!"t", [.call c!"ping" []])] l r ∧ r.finished = true ∧
    (pingRecord k).text ++ c!"\n" ∈ outOf (some 0) r.out ∧ r.stats = [] ∧ outOf none r.out = [Stats.text F []] := by
  refine ⟨[.work 0 (refusing k), .work 0 (refusing k), .work 0 (refusing k), .work 0 (refusing k), .work 0 (refusing k), .drop, .collect], _, rfl, rfl, ?_, rfl, rfl⟩
  exact List.mem_cons_of_mem _ List.mem_cons_self

/-- A response with the body `a!`. -/
def loopingIncoming : Incoming := ⟨utf8 c!"HTTP/1.1 200 OK\r\nContent-Length: 2\r\n\r\na!", none⟩

/-- A network whose server answers every request with it. -/
def loopingNet : Net := ⟨fun _ _ => .answered loopingIncoming ⟨0, 0, 0, 0, 0, 0, 0, 0, 0, 0⟩, fun _ => none⟩

/-- A thread in an endless evaluation stays there. -/
theorem stuck_forever (cfg : Config) (r r' : Run F) (l : List RunStep) (h : r.run cfg l = some r') (w : Worker F) (hw : w ∈ r.workers) (hs : w.pc = .stuck) :
    r'.finished = false := by
  obtain ⟨i, hi⟩ := List.mem_iff_getElem?.1 hw
  obtain ⟨_, log, received, _, _, _, g⟩ := run_project h
  obtain ⟨w', o, k1, k2, _⟩ := g i w hi
  have : w' = w := by
    cases hin : inputs i r.continuous l with
    | nil => rw [hin] at k1; simp only [workerRun, Option.some.injEq, Prod.mk.injEq] at k1; exact k1.1.symm
    | cons x ins =>
      rw [hin] at k1
      obtain ⟨cont, net⟩ := x
      simp only [workerRun, Worker.step, hs] at k1
      cases k1
  subst this
  cases hf : r'.finished with
  | false => rfl
  | true =>
    simp only [Run.finished, Bool.and_eq_true, Run.workersDone, List.all_eq_true, beq_iff_eq] at hf
    have := hf.1.1 w' (List.mem_of_getElem? k2)
    rw [hs] at this
    cases this

/-- C51 is false also because a server can keep the program from ending: with the response body `a!` one thread never leaves the evaluation, and
whatever happens afterwards, interruption and timeout included, the program does not finish. -/
theorem c51_false_endless : ∃ l, ∃ r : Run F, NamedRun false false pingContext c!"t" [.call c!"ping" []] 1 1 l r ∧
    ∀ l' r', r.run ⟨true, 1 / 1, false⟩ l' = some r' → r'.finished = false :=
  ⟨[.work 0 loopingNet, .work 0 loopingNet], _, rfl, fun l' r' h => stuck_forever _ _ r' l' h _ List.mem_cons_self rfl⟩

/-! ## C58 -/

/-- C58 for a run of all tests (missing: runs of a named test, see `c58_false`): when the thread of a failing test has ended, everything its evaluation recorded
is printed, after the error message, and written to its record file. -/
theorem c58_all_partial (record stat : Bool) (base : Context F) (tests : List (Str × List (Expr F))) (l : List RunStep) (r : Run F)
    (h : AllRun record stat base tests l r) (i : Nat) (name : Str) (test : List (Expr F)) (hi : tests[i]? = some (name, test)) (w : Worker F)
    (hw : r.workers[i]? = some w) (hd : w.pc = .done) :
    ∃ net, evalNets ⟨false, 1, stat⟩ i (fresh record base name test) (inputs i true l) = [net] ∧
      ∀ e s, runBlock net test ⟨base.clone, [], []⟩ = (.err e, s) →
        outOf (some i) r.out = [s.out, e ++ c!"\n"] ++ s.ctx.records.map (fun r => r.text ++ c!"\n") ∧
        w.file = if record then some (iterationFile name i [(s.out, s.ctx.records)]) else none := by
  obtain ⟨_, _, _, g⟩ := all_worker h
  obtain ⟨w', hw', _, _, _, _, ha⟩ := g i name test hi
  rw [hw] at hw'
  cases hw'
  unfold AllAt at ha
  rw [hd] at ha
  obtain ⟨net, s, a1, ha⟩ := ha
  refine ⟨net, a1, ?_⟩
  intro e s' he
  rcases ha with ⟨b1, _⟩ | ⟨b1, ⟨v, b2, _⟩ | ⟨e', b2, b3⟩⟩
  · rw [he] at b1; cases b1
  · rw [he] at b2; cases b2
  · rw [he] at b2; cases b2; exact ⟨b3, b1⟩

/-- In a run of a named test the opposite holds of every failing evaluation: its records are neither printed, nor written, nor counted. -/
theorem c58_named_loses (record stat : Bool) (base : Context F) (name : Str) (test : List (Expr F)) (t n : Nat) (l : List RunStep) (r : Run F)
    (h : NamedRun record stat base name test t n l r) (i : Nat) (hi : i < t) (w : Worker F) (hw : r.workers[i]? = some w) (hd : w.pc = .done)
    (good : List Net) (hist : List (Str × List Record)) (c : Context F) (net : Net) (e : Str) (s : St F) (hg : Iterations test base.clone good hist c)
    (hn : executions record stat base name test t n l i = good ++ [net]) (he : runBlock net test ⟨c, [], []⟩ = (.err e, s)) :
    outOf (some i) r.out = chunks hist ++ [s.out, e ++ c!"\n"] ∧ w.file = if record then some (iterationFile name i hist) else none := by
  obtain ⟨_, log, received, _, _, _, g⟩ := named_worker h
  obtain ⟨w', hw', _, _, good', hist', c', hit', ha⟩ := g i hi
  rw [hw] at hw'
  cases hw'
  unfold NamedAt at ha
  rw [hd] at ha
  obtain ⟨_, a2, _, ⟨b1, _⟩ | ⟨net', s', b1, _, b3⟩⟩ := ha
  · exfalso
    rw [← b1, hn] at hit'
    generalize hgn : good ++ [net] = ns at hit'
    cases hit' with
    | nil => simp at hgn
    | @snoc nets' hist'' c'' net' v' s' h'' hr' =>
      obtain ⟨e1, e2⟩ := List.append_inj' hgn rfl
      simp only [List.cons.injEq, and_true] at e2
      subst e1 e2
      obtain ⟨_, rfl⟩ := iterations_unique hg h''
      rw [hr'] at he
      cases he
  · rw [hn] at b1
    obtain ⟨e1, e2⟩ := List.append_inj' b1 rfl
    simp only [List.cons.injEq, and_true] at e2
    subst e1 e2
    obtain ⟨rfl, rfl⟩ := iterations_unique hg hit'
    rcases b3 with ⟨e', b3, b4⟩ | ⟨b3, _⟩
    · rw [he] at b3; cases b3; exact ⟨b4, a2⟩
    · rw [he] at b3; cases b3

/-- C58 is false: a named test that calls `ping`, which is recorded, and then an undefined name: the program prints the error message and nothing else,
and writes nothing to the record file. -/
theorem c58_false (k : Clocks) : ∃ l, ∃ (r : Run F) (w : Worker F) (s : St F) (e : Str), NamedRun true true pingContext c!"t" [.call c!"ping" [], .call c!"pong" []] 1 1 l r ∧ r.finished = true ∧
    runBlock (refusing k) [.call c!"ping" [], .call c!"pong" []] ⟨pingContext.clone, [], []⟩ = (.err e, s) ∧ s.ctx.records = [pingRecord k] ∧
    outOf (some 0) r.out = [[], e ++ c!"\n"] ∧ r.workers[0]? = some w ∧ w.file = some (writerFile []) ∧ r.stats = [] :=
  ⟨[.work 0 (refusing k), .work 0 (refusing k), .drop, .collect], _, _, _, _, rfl, rfl, rfl, rfl, rfl, rfl, by simp [writerFile, Run.init, Worker.init], rfl⟩

end Am
