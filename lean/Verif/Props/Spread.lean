import Verif.Spec.Spread
import Verif.Props.Timing
import Verif.Props.Flow
import Verif.Props.Running
import Verif.Model.Float64
set_option linter.unusedSimpArgs false
set_option linter.unusedSectionVars false
/-! # C123: spreading the iterations over threads changes nothing but the order -/
namespace Am
open Spec
variable {F : Type} [Rt F]

theorem inputs_mem {i : Nat} {x : Bool × Net} : ∀ {l : List RunStep} {b : Bool}, x ∈ inputs i b l → RunStep.work i x.2 ∈ l
  | [], _, h => by simp [inputs] at h
  | .work j net :: l, b, h => by
    unfold inputs at h
    by_cases hj : j = i
    · rw [if_pos hj] at h
      rcases List.mem_cons.1 h with rfl | h
      · rw [hj]; exact List.mem_cons_self
      · exact List.mem_cons_of_mem _ (inputs_mem h)
    · rw [if_neg hj] at h
      exact List.mem_cons_of_mem _ (inputs_mem h)
  | .stop :: l, b, h => List.mem_cons_of_mem _ (inputs_mem (b := false) h)
  | .drop :: l, b, h => List.mem_cons_of_mem _ (inputs_mem (b := b) h)
  | .collect :: l, b, h => List.mem_cons_of_mem _ (inputs_mem (b := b) h)

theorem evalNets_mem {cfg : Config} {i : Nat} {m : Net} : ∀ {l : List (Bool × Net)} {w : Worker F}, m ∈ evalNets cfg i w l → ∃ x ∈ l, x.2 = m
  | [], _, h => by simp [evalNets] at h
  | (b, net) :: l, w, h => by
    unfold evalNets at h
    cases hst : w.step cfg b i net with
    | none => rw [hst] at h; simp at h
    | some p =>
      rw [hst] at h
      rcases List.mem_append.1 h with h | h
      · by_cases hp : w.pc = .eval
        · rw [if_pos hp] at h
          exact ⟨(b, net), List.mem_cons_self, (List.mem_singleton.1 h).symm⟩
        · rw [if_neg hp] at h; simp at h
      · obtain ⟨x, hx, he⟩ := evalNets_mem h
        exact ⟨x, List.mem_cons_of_mem _ hx, he⟩

theorem executions_like {record stat : Bool} {base : Context F} {name : Str} {test : List (Expr F)} {t n : Nat} {l : List RunStep} {net : Net}
    (hl : AnswersLike net l) (i : Nat) : ∀ m ∈ executions record stat base name test t n l i, SameAnswers m net := by
  intro m hm
  obtain ⟨x, hx, he⟩ := evalNets_mem hm
  have := hl i x.2 (inputs_mem hx)
  rwa [he] at this

theorem same_refl_state {base : Context F} (hb : base.records = []) : SameState (⟨base, [], []⟩ : St F) ⟨base, [], []⟩ :=
  ⟨⟨rfl, rfl, by rw [hb]; exact .nil⟩, rfl, rfl⟩

/-- One more execution against a network that answers like `net`. -/
theorem next_like {test : List (Expr F)} {base : Context F} {nets : List Net} {hist : List (Str × List Record)} {c : Context F} {net : Net} {v : Value F}
    {s : St F} (hb : base.records = []) (hk : KnownList base.requests (fun x => x ∉ letsList test) test)
    (hok : runBlock net test ⟨base, [], []⟩ = (.ok v, s)) (h : Iterations test base nets hist c) (m : Net) (hm : SameAnswers m net) :
    ∃ s', runBlock m test ⟨c, [], []⟩ = (.ok v, s') ∧ s'.sent = s.sent ∧ SameTurn (s'.out, s'.ctx.records) s := by
  obtain ⟨h1, h2, h3, h4⟩ := c66_next_partial h hb hk m
  obtain ⟨k1, k2⟩ := c87_block m net hm test _ _ (same_refl_state hb)
  rw [hok] at k1 k2
  refine ⟨(runBlock m test ⟨c, [], []⟩).2, ?_, ?_, ?_, ?_⟩
  · rw [← show (runBlock m test ⟨c, [], []⟩).1 = .ok v from h1.trans k1]
  · exact h2.trans k2.2.1
  · exact h3.trans k2.2.2
  · dsimp only
    rw [h4]
    exact k2.1.2.2

theorem iterations_like {test : List (Expr F)} {base : Context F} {net : Net} {v : Value F} {s : St F} (hb : base.records = [])
    (hk : KnownList base.requests (fun x => x ∉ letsList test) test) (hok : runBlock net test ⟨base, [], []⟩ = (.ok v, s))
    {nets : List Net} {hist : List (Str × List Record)} {c : Context F} (h : Iterations test base nets hist c) (hm : ∀ m ∈ nets, SameAnswers m net) :
    ∀ p ∈ hist, SameTurn p s := by
  induction h with
  | nil => intro p hp; simp at hp
  | @snoc nets hist c m v' s' h hr ih =>
    intro p hp
    rcases List.mem_append.1 hp with hp | hp
    · exact ih (fun m hm' => hm m (List.mem_append_left _ hm')) p hp
    · obtain ⟨s'', e1, _, e2⟩ := next_like hb hk hok h m (hm m (List.mem_append_right _ (List.mem_singleton.2 rfl)))
      rw [hr] at e1
      cases e1
      rw [List.mem_singleton.1 hp]
      exact e2

theorem sentIn_like {test : List (Expr F)} {base : Context F} {net : Net} {v : Value F} {s : St F} (hb : base.records = [])
    (hk : KnownList base.requests (fun x => x ∉ letsList test) test) (hok : runBlock net test ⟨base, [], []⟩ = (.ok v, s)) :
    ∀ (rest : List Net) {nets : List Net} {hist : List (Str × List Record)} {c : Context F}, Iterations test base nets hist c →
      (∀ m ∈ rest, SameAnswers m net) → sentIn test c rest = List.replicate rest.length s.sent ∧ ∃ hist' c', Iterations test base (nets ++ rest) hist' c'
  | [], nets, hist, c, h, _ => ⟨rfl, hist, c, by rw [List.append_nil]; exact h⟩
  | m :: rest, nets, hist, c, h, hm => by
    obtain ⟨s', e1, e2, _⟩ := next_like hb hk hok h m (hm m List.mem_cons_self)
    have := sentIn_like hb hk hok rest (h.snoc e1) (fun m hm' => hm m (List.mem_cons_of_mem _ hm'))
    unfold sentIn
    rw [e1]
    dsimp only
    rw [this.1, e2, List.length_cons, List.replicate_succ]
    refine ⟨rfl, ?_⟩
    rw [List.append_assoc] at this
    exact this.2

theorem flatMap_replicate {α : Type} (a : α) (k : Nat) : ∀ t : Nat, (List.range t).flatMap (fun _ => List.replicate k a) = List.replicate (t * k) a
  | 0 => by simp
  | t + 1 => by
    rw [List.range_succ, List.flatMap_append, flatMap_replicate a k t]
    simp [Nat.succ_mul]

/-- C123, partial: a run of a test that sets its own variables before it reads them, against servers that always answer the same (at whatever times),
without an error, a stop or a timeout: every thread executes the test `n / t` times, and every execution sends the same messages, prints the same text
and records the same exchanges as a single run of the test. The messages of all threads are those of one run, `t * (n / t)` times. -/
theorem c123_turns_partial {record stat : Bool} {base : Context F} {name : Str} {test : List (Expr F)} {t n : Nat} {l : List RunStep} {r : Run F} {net : Net}
    {v : Value F} {s : St F} (h : NamedRun record stat base name test t n l r) (hd : r.workersDone = true) (hs : RunStep.stop ∉ l)
    (hl : AnswersLike net l) (hk : KnownList base.requests (fun x => x ∉ letsList test) test)
    (hok : runBlock net test ⟨base.clone, [], []⟩ = (.ok v, s)) :
    (∀ i, i < t → ∃ hist : List (Str × List Record), hist.length = n / t ∧ outOf (some i) r.out = chunks hist ∧ ∀ p ∈ hist, SameTurn p s) ∧
    allSent record stat base name test t n l = List.replicate (t * (n / t)) s.sent := by
  have hall : ∀ i, ∃ hist c, Iterations test base.clone (executions record stat base name test t n l i) hist c := fun i => by
    have := (sentIn_like (base := base.clone) rfl hk hok (executions record stat base name test t n l i) .nil (executions_like hl i)).2
    simpa using this
  have hlen := (c49_per_thread record stat base name test t n l r h hd hs (fun i _ => hall i)).1
  constructor
  · intro i hi
    obtain ⟨_, log, received, _, _, _, g⟩ := named_worker h
    obtain ⟨w, hw, _, _, good, hist, c, hit, ha⟩ := g i hi
    have hpc : w.pc = .done := by
      have := List.all_eq_true.1 hd w (List.mem_of_getElem? hw)
      simpa using this
    unfold NamedAt at ha
    rw [hpc] at ha
    obtain ⟨_, _, _, ⟨b1, _, b3, _, _⟩ | ⟨m, s', b1, _, b3⟩⟩ := ha
    · refine ⟨hist, ?_, b3, iterations_like (base := base.clone) rfl hk hok hit (fun m hm => executions_like hl i m (by rw [b1]; exact hm))⟩
      have := hlen i hi
      rw [b1, iterations_length hit] at this
      exact this
    · exfalso
      have hm := executions_like hl i m (by rw [b1]; exact List.mem_append_right _ (List.mem_singleton.2 rfl))
      obtain ⟨s'', e1, _⟩ := next_like (base := base.clone) rfl hk hok hit m hm
      rcases b3 with ⟨e, e2, _⟩ | ⟨e2, _⟩ <;> rw [e1] at e2 <;> cases e2
  · unfold allSent
    rw [← flatMap_replicate, List.flatMap_def, List.flatMap_def]
    congr 1
    refine List.map_congr_left fun i hi => ?_
    rw [(sentIn_like (base := base.clone) rfl hk hok _ .nil (executions_like hl i)).1, hlen i (List.mem_range.1 hi)]

theorem countOf_addAll (l : List (Str × Nat)) (k : Str) : countOf k (addAll l []) = (timesOf k l).length := by
  obtain ⟨_, h⟩ := c34_exact l
  obtain ⟨h1, h2⟩ := h k
  unfold countOf
  by_cases hn : timesOf k l = []
  · rw [h1 hn, hn]; rfl
  · obtain ⟨st, e1, e2⟩ := h2 hn
    rw [e1]
    exact e2.1

theorem timesOf_append (k : Str) (l l' : List (Str × Nat)) : timesOf k (l ++ l') = timesOf k l ++ timesOf k l' := by
  simp [timesOf]

theorem named_each {rs rs' : List Record} (h : Each SameRecord rs rs') (k : Str) :
    (rs.filter fun r => r.name == k).length = (rs'.filter fun r => r.name == k).length := by
  induction h with
  | nil => rfl
  | cons h1 _ ih =>
    simp only [List.filter_cons, h1.1]
    split <;> simp [ih]

theorem timesOf_turn (k : Str) (rs : List Record) :
    (timesOf k (rs.map fun r => (r.name, r.time.total / 1000000))).length = (rs.filter fun r => r.name == k).length := by
  induction rs with
  | nil => rfl
  | cons r l ih =>
    simp only [timesOf, List.map_cons, List.filter_cons, List.length_map] at ih ⊢
    by_cases h : r.name = k <;> simp [h, ih]

theorem timesOf_turns {s : St F} (k : Str) : ∀ {hist : List (Str × List Record)}, (∀ p ∈ hist, SameTurn p s) →
    (timesOf k (samples hist)).length = hist.length * (s.ctx.records.filter fun r => r.name == k).length
  | [], _ => by simp [samples, timesOf]
  | p :: hist, h => by
    have ih := timesOf_turns k (hist := hist) (fun q hq => h q (List.mem_cons_of_mem _ hq))
    have hp := named_each (h p List.mem_cons_self).2 k
    unfold samples at ih ⊢
    rw [List.flatMap_cons, timesOf_append, List.length_append, ih, timesOf_turn, hp, List.length_cons, Nat.succ_mul, Nat.add_comm]

theorem timesOf_threads {s : St F} (k : Str) (m : Nat) (hists : Nat → List (Str × List Record)) : ∀ {t : Nat},
    (∀ i, i < t → (hists i).length = m ∧ ∀ p ∈ hists i, SameTurn p s) →
    (timesOf k ((List.range t).flatMap fun i => samples (hists i))).length = t * m * (s.ctx.records.filter fun r => r.name == k).length
  | 0, _ => by simp [timesOf]
  | t + 1, h => by
    have ih := timesOf_threads k m hists (t := t) (fun i hi => h i (by omega))
    obtain ⟨h1, h2⟩ := h t (by omega)
    rw [List.range_succ, List.flatMap_append, timesOf_append, List.length_append, ih]
    simp only [List.flatMap_cons, List.flatMap_nil, List.append_nil]
    rw [timesOf_turns k h2, h1, Nat.succ_mul, Nat.add_mul]

/-- C123, partial (see `c123_turns_partial`): the statistics of such a run count every request `t * (n / t)` times as often as a single run of the test
sends it. -/
theorem c123_counts_partial {record : Bool} {base : Context F} {name : Str} {test : List (Expr F)} {t n : Nat} {l : List RunStep} {r : Run F} {net : Net}
    {v : Value F} {s : St F} (h : NamedRun record true base name test t n l r) (hc : r.collector = .done) (hs : RunStep.stop ∉ l)
    (hl : AnswersLike net l) (hk : KnownList base.requests (fun x => x ∉ letsList test) test)
    (hok : runBlock net test ⟨base.clone, [], []⟩ = (.ok v, s)) (k : Str) :
    countOf k r.stats = t * (n / t) * (s.ctx.records.filter fun r => r.name == k).length := by
  obtain ⟨hf, _, hists, h1, _, h3⟩ := c51_complete_partial record base name test t n l r h hc
  have hd : r.workersDone = true := by
    simp only [Run.finished, Bool.and_eq_true] at hf
    exact hf.1.1
  have hall : ∀ i, ∃ hist c, Iterations test base.clone (executions record true base name test t n l i) hist c := fun i => by
    have := (sentIn_like (base := base.clone) rfl hk hok (executions record true base name test t n l i) .nil (executions_like hl i)).2
    simpa using this
  have hlen := (c49_per_thread record true base name test t n l r h hd hs (fun i _ => hall i)).1
  have hh : ∀ i, i < t → (hists i).length = n / t ∧ ∀ p ∈ hists i, SameTurn p s := by
    intro i hi
    obtain ⟨good, c, hit, he | ⟨m, he, hne⟩⟩ := h1 i hi
    · constructor
      · have := hlen i hi
        rw [he, iterations_length hit] at this
        exact this
      · exact iterations_like (base := base.clone) rfl hk hok hit (fun m hm => executions_like hl i m (by rw [he]; exact hm))
    · exfalso
      have hm := executions_like hl i m (by rw [he]; exact List.mem_append_right _ (List.mem_singleton.2 rfl))
      obtain ⟨s'', e1, _⟩ := next_like (base := base.clone) rfl hk hok hit m hm
      exact hne _ _ e1
  have e : countOf k r.stats = countOf k (addAll ((List.range t).flatMap fun i => samples (hists i)) []) := by
    unfold countOf
    rw [h3 k]
  rw [e, countOf_addAll, timesOf_threads k (n / t) hists hh]

/-- C123, partial: two runs of such a test with the same `--number` and different numbers of threads, both dividing it, send the same messages equally often,
and their statistics count the same. Missing: numbers of threads that do not divide (`c123_false_remainder`) and tests that read what the iteration before has
left (`c123_false`). -/
theorem c123_threads_partial {record record' : Bool} {base : Context F} {name : Str} {test : List (Expr F)} {t t' n : Nat} {l l' : List RunStep} {r r' : Run F}
    {net : Net} {v : Value F} {s : St F} (h : NamedRun record true base name test t n l r) (h' : NamedRun record' true base name test t' n l' r')
    (hc : r.collector = .done) (hc' : r'.collector = .done) (hs : RunStep.stop ∉ l) (hs' : RunStep.stop ∉ l')
    (hl : AnswersLike net l) (hl' : AnswersLike net l') (hk : KnownList base.requests (fun x => x ∉ letsList test) test)
    (hok : runBlock net test ⟨base.clone, [], []⟩ = (.ok v, s)) (ht : t ∣ n) (ht' : t' ∣ n) :
    allSent record true base name test t n l = allSent record' true base name test t' n l' ∧ ∀ k, countOf k r.stats = countOf k r'.stats := by
  have d : ∀ {record t l} {r : Run F}, NamedRun record true base name test t n l r → r.collector = .done → r.workersDone = true := fun h hc => by
    have hf := (c51_complete_partial _ base name test _ n _ _ h hc).1
    simp only [Run.finished, Bool.and_eq_true] at hf
    exact hf.1.1
  constructor
  · rw [(c123_turns_partial h (d h hc) hs hl hk hok).2, (c123_turns_partial h' (d h' hc') hs' hl' hk hok).2, Nat.mul_div_cancel' ht, Nat.mul_div_cancel' ht']
  · intro k
    rw [c123_counts_partial h hc hs hl hk hok, c123_counts_partial h' hc' hs' hl' hk hok, Nat.mul_div_cancel' ht, Nat.mul_div_cancel' ht']

/-! ## Examples and counterexamples -/

/-- A server that cannot be reached. -/
def deadNet : Net := ⟨fun _ _ => .refused .hostNotFound ⟨0, 0, 0, 0, 0, 0, 0, 0, 0, 0⟩, fun _ => none⟩

/-- Variables and requests of the examples: `n` is a text, the request `a` has it in its path. -/
def spreadBase : Context F := ⟨[(c!"n", .str c!"x")], [(c!"a", (c!"GET http://h/{n}", []))], []⟩

/-- `a()` -/
def steadyTest : List (Expr F) := [.call c!"a" []]

/-- `let n = n + "1"; a()` -/
def growingTest : List (Expr F) := [.letE c!"n" (.binary ⟨.Add, c!"+"⟩ (.ident c!"n") (.str c!"1")), .call c!"a" []]

/-- Six steps of a thread that make one iteration with one record. -/
def turn (i : Nat) : List RunStep := List.replicate 6 (.work i deadNet)

/-- One thread, two iterations. -/
def alone : List RunStep := turn 0 ++ turn 0 ++ [.work 0 deadNet, .drop, .collect, .collect, .collect]

/-- Two threads, one iteration each. -/
def together : List RunStep := turn 0 ++ turn 1 ++ [.work 0 deadNet, .work 1 deadNet, .drop, .collect, .collect, .collect]

theorem run_exists {t n : Nat} {base : Context F} {name : Str} {test : List (Expr F)} {l : List RunStep} {p : Run F → Bool}
    (h : ((Run.init (List.replicate t (fresh false base name test))).run ⟨true, n / t, true⟩ l).map p = some true) :
    ∃ r, NamedRun (F := F) false true base name test t n l r ∧ p r = true := by
  unfold NamedRun
  cases hr : (Run.init (List.replicate t (fresh false base name test))).run ⟨true, n / t, true⟩ l with
  | none => rw [hr] at h; cases h
  | some r => rw [hr] at h; exact ⟨r, rfl, by simpa using h⟩

/-- Concrete case for `c123_turns_partial`, `c123_counts_partial` and `c123_threads_partial`: one thread with two iterations, two threads with one each. -/
example : letI := rt64 ⟨true, fun c => [c], id⟩
    KnownList (F := F64) spreadBase.requests (fun x => x ∉ letsList (F := F64) steadyTest) steadyTest ∧
    AnswersLike deadNet alone ∧ AnswersLike deadNet together ∧ RunStep.stop ∉ alone ∧ RunStep.stop ∉ together ∧
    (∃ r, NamedRun (F := F64) false true spreadBase c!"t" steadyTest 1 2 alone r ∧ (r.collector == .done) = true) ∧
    (∃ r, NamedRun (F := F64) false true spreadBase c!"t" steadyTest 2 2 together r ∧ (r.collector == .done && countOf c!"a" r.stats == 2) = true) ∧
    (match (runBlock (F := F64) deadNet steadyTest ⟨spreadBase.clone, [], []⟩).1 with | .ok _ => true | _ => false) = true ∧
    (runBlock (F := F64) deadNet steadyTest ⟨spreadBase.clone, [], []⟩).2.sent = [c!"GET http://h/x"] := by
  letI := rt64 ⟨true, fun c => [c], id⟩
  have hl : ∀ l, (∀ x ∈ l, x = RunStep.work 0 deadNet ∨ x = .work 1 deadNet ∨ x = .drop ∨ x = .collect) → AnswersLike deadNet l ∧ RunStep.stop ∉ l := by
    intro l h
    refine ⟨fun i m hm => ?_, fun hm => ?_⟩
    · rcases h _ hm with h | h | h | h <;> cases h <;> exact ⟨rfl, fun _ _ => .refused _⟩
    · rcases h _ hm with h | h | h | h <;> cases h
  have h1 := hl alone (by intro x hx; simp [alone, turn] at hx; rcases hx with h | h | h | h <;> simp_all)
  have h2 := hl together (by intro x hx; simp [together, turn] at hx; rcases hx with h | h | h | h | h <;> simp_all)
  refine ⟨?_, h1.1, h2.1, h1.2, h2.2, run_exists (by decide +kernel), run_exists (by decide +kernel), by decide +kernel, by decide +kernel⟩
  simp [steadyTest, KnownList, KnownIn, KnownCall, spreadBase, amGet]
  intros
  exact .inl (by simp [letsList, lets])

/-- C123 is false for a test that reads what the iteration before has left: one thread and two threads send different messages. -/
theorem c123_false : letI := rt64 ⟨true, fun c => [c], id⟩
    ∃ l l' r r', NamedRun (F := F64) false true spreadBase c!"t" growingTest 1 2 l r ∧ r.finished = true ∧
    NamedRun (F := F64) false true spreadBase c!"t" growingTest 2 2 l' r' ∧ r'.finished = true ∧
    allSent (F := F64) false true spreadBase c!"t" growingTest 1 2 l = [[c!"GET http://h/x1"], [c!"GET http://h/x11"]] ∧
    allSent (F := F64) false true spreadBase c!"t" growingTest 2 2 l' = [[c!"GET http://h/x1"], [c!"GET http://h/x1"]] := by
  letI := rt64 ⟨true, fun c => [c], id⟩
  obtain ⟨r, h1, h2⟩ := run_exists (F := F64) (t := 1) (n := 2) (base := spreadBase) (name := c!"t") (test := growingTest) (l := alone) (p := Run.finished) (by decide +kernel)
  obtain ⟨r', h3, h4⟩ := run_exists (F := F64) (t := 2) (n := 2) (base := spreadBase) (name := c!"t") (test := growingTest) (l := together) (p := Run.finished) (by decide +kernel)
  exact ⟨alone, together, r, r', h1, h2, h3, h4, by decide +kernel, by decide +kernel⟩

/-- C123 is false when the number of threads does not divide the number of iterations: the remainder is not executed. -/
theorem c123_false_remainder : letI := rt64 ⟨true, fun c => [c], id⟩
    ∃ l l' r r', NamedRun (F := F64) false true spreadBase c!"t" steadyTest 1 1 l r ∧ r.finished = true ∧
    NamedRun (F := F64) false true spreadBase c!"t" steadyTest 2 1 l' r' ∧ r'.finished = true ∧
    allSent (F := F64) false true spreadBase c!"t" steadyTest 1 1 l = [[c!"GET http://h/x"]] ∧
    allSent (F := F64) false true spreadBase c!"t" steadyTest 2 1 l' = [] := by
  letI := rt64 ⟨true, fun c => [c], id⟩
  obtain ⟨r, h1, h2⟩ := run_exists (F := F64) (t := 1) (n := 1) (base := spreadBase) (name := c!"t") (test := steadyTest)
    (l := turn 0 ++ [.work 0 deadNet, .drop, .collect, .collect]) (p := Run.finished) (by decide +kernel)
  obtain ⟨r', h3, h4⟩ := run_exists (F := F64) (t := 2) (n := 1) (base := spreadBase) (name := c!"t") (test := steadyTest)
    (l := [.work 0 deadNet, .work 1 deadNet, .drop, .collect]) (p := Run.finished) (by decide +kernel)
  exact ⟨_, _, r, r', h1, h2, h3, h4, by decide +kernel, by decide +kernel⟩

end Am
