import Verif.Props.ReplayRun
import Verif.Props.Secrets
set_option linter.unusedSimpArgs false
/-! # Records and secrets of whole test runs (C131, C132) -/
namespace Am
open Am.Spec
variable {F : Type} [Rt F]

theorem iterations_all_good {test : List (Expr F)} {base c c' : Context F} {good : List Net} {net : Net} {hist hist' : List (Str × List Record)}
    (h : Iterations test base good hist c) (h' : Iterations test base (good ++ [net]) hist' c') : ∃ v s, runBlock net test ⟨c, [], []⟩ = (.ok v, s) := by
  generalize hn : good ++ [net] = nets at h'
  cases h' with
  | nil => simp at hn
  | @snoc nets hist1 c1 net1 v s h1 hr =>
    obtain ⟨hg, he⟩ := List.append_inj' hn rfl
    obtain rfl := (List.cons.inj he).1
    subst hg
    obtain ⟨_, rfl⟩ := iterations_unique h h1
    exact ⟨v, s, hr⟩

/-- The record file of a thread that has ended and whose executions all succeeded is that of its iterations. -/
theorem file_of_thread {stat : Bool} {base c : Context F} {name : Str} {test : List (Expr F)} {t n : Nat} {l : List RunStep} {r : Run F}
    {hist : List (Str × List Record)} (h : NamedRun true stat base name test t n l r) (hd : r.workersDone = true) {i : Nat} (hi : i < t)
    (hit : Iterations test base.clone (executions true stat base name test t n l i) hist c) :
    ∃ w, r.workers[i]? = some w ∧ w.file = some (iterationFile name i hist) := by
  obtain ⟨w, good, hist1, c1, h1, h2, h3, _, h5⟩ := c50_named stat base name test t n l r h i hi
  have hpc : w.pc = .done := by
    have := List.all_eq_true.1 hd w (List.mem_of_getElem? h1)
    simpa using this
  refine ⟨w, h1, ?_⟩
  rcases h3 with h3 | ⟨net, h3, h4⟩
  · rw [h3] at hit
    obtain ⟨rfl, _⟩ := iterations_unique hit h2
    exact (h5 (.inr hpc)).2
  · rw [h3] at hit
    obtain ⟨v, s, hr⟩ := iterations_all_good h2 hit
    exact absurd hr (h4 v s)

/-- C131: two threads that execute a test equally often from the same context, and get the same responses, have sent the same messages. -/
theorem c131_messages {test : List (Expr F)} {c c' : Context F} : ∀ {nets nets' : List Net} {hist hist' : List (Str × List Record)} {base : Context F},
    Iterations test base nets hist c → Iterations test base nets' hist' c' → base.records = [] → nets.length = nets'.length →
    (hist.flatMap Prod.snd).map (·.response) = (hist'.flatMap Prod.snd).map (·.response) → sentIn test base nets = sentIn test base nets'
  | [], [], _, _, _, _, _, _, _, _ => rfl
  | [], _ :: _, _, _, _, _, _, _, hl, _ => by simp at hl
  | _ :: _, [], _, _, _, _, _, _, hl, _ => by simp at hl
  | n :: nets, n' :: nets', _, _, base, h, h', hb, hl, hr => by
    obtain ⟨v, s, hist, e1, rfl, e3⟩ := iterations_uncons h n nets rfl
    obtain ⟨v', s', hist', e1', rfl, e3'⟩ := iterations_uncons h' n' nets' rfl
    simp only [List.flatMap_cons, List.map_append] at hr
    obtain ⟨g1, g2, g3⟩ := c131_determined n n' test ⟨base, [], []⟩ (by rw [e1]; exact ⟨nofun, nofun⟩) (by rw [e1']; exact ⟨nofun, nofun⟩)
      (recs := s.ctx.records) (recs' := s'.ctx.records) (by rw [e1, hb]; rfl) (by rw [e1', hb]; rfl) hr
    rw [e1, e1'] at g2
    have he : ({ s.ctx with records := [] } : Context F) = { s'.ctx with records := [] } := by
      show Context.mk _ _ _ = Context.mk _ _ _
      rw [g2.inner, g2.requests]
    rw [he] at e3
    rw [each_replayed_responses g3] at hr
    have k := c131_messages e3 e3' rfl (by simpa using hl) (List.append_cancel_left hr)
    unfold sentIn
    rw [e1, e1']
    dsimp only
    rw [he, k, g2.sent]

/-- C131 for `am test`: two runs of a test with the same number of threads and iterations, in which every execution ends with a value and which are not
stopped. If they leave the same record files, they have sent the same messages, thread by thread and execution by execution, and every execution has printed
the same — whatever the schedules, and whatever the servers would have answered otherwise. -/
theorem c131_run {stat stat' : Bool} {base : Context F} {name : Str} {test : List (Expr F)} {t n : Nat} {l l' : List RunStep} {r r' : Run F}
    (h : NamedRun true stat base name test t n l r) (h' : NamedRun true stat' base name test t n l' r')
    (hd : r.workersDone = true) (hd' : r'.workersDone = true) (hs : RunStep.stop ∉ l) (hs' : RunStep.stop ∉ l')
    (hall : ∀ i, i < t → ∃ hist c, Iterations test base.clone (executions true stat base name test t n l i) hist c ∧
      ∀ b ∈ hist.zipIdx.map (fun p => (⟨p.1.2, name, i, p.2⟩ : Batch)), BatchFits b)
    (hall' : ∀ i, i < t → ∃ hist c, Iterations test base.clone (executions true stat' base name test t n l' i) hist c ∧
      ∀ b ∈ hist.zipIdx.map (fun p => (⟨p.1.2, name, i, p.2⟩ : Batch)), BatchFits b)
    (hf : ∀ i, i < t → ∀ w w', r.workers[i]? = some w → r'.workers[i]? = some w' → w.file = w'.file) :
    allSent true stat base name test t n l = allSent true stat' base name test t n l' ∧
    ∀ i, i < t → ∀ hist hist' c c', Iterations test base.clone (executions true stat base name test t n l i) hist c →
      Iterations test base.clone (executions true stat' base name test t n l' i) hist' c' → hist.map Prod.fst = hist'.map Prod.fst ∧ c = c' := by
  have hlen := (c49_per_thread true stat base name test t n l r h hd hs (fun i hi => by obtain ⟨a, b, g, _⟩ := hall i hi; exact ⟨a, b, g⟩)).1
  have hlen' := (c49_per_thread true stat' base name test t n l' r' h' hd' hs' (fun i hi => by obtain ⟨a, b, g, _⟩ := hall' i hi; exact ⟨a, b, g⟩)).1
  have step : ∀ i, i < t → ∃ hist hist' c c', Iterations test base.clone (executions true stat base name test t n l i) hist c ∧
      Iterations test base.clone (executions true stat' base name test t n l' i) hist' c' ∧
      (hist.flatMap Prod.snd).map (·.response) = (hist'.flatMap Prod.snd).map (·.response) := by
    intro i hi
    obtain ⟨hist, c, g, gf⟩ := hall i hi
    obtain ⟨hist', c', g', gf'⟩ := hall' i hi
    obtain ⟨w, w1, w2⟩ := file_of_thread h hd hi g
    obtain ⟨w', w1', w2'⟩ := file_of_thread h' hd' hi g'
    have he : iterationFile name i hist = iterationFile name i hist' := Option.some.inj (w2.symm.trans ((hf i hi w w' w1 w1').trans w2'))
    have := filesData_responses (c32_file_unambiguous _ _ gf gf' he)
    rw [hist_records, hist_records] at this
    exact ⟨hist, hist', c, c', g, g', this⟩
  constructor
  · unfold allSent
    rw [List.flatMap_def, List.flatMap_def]
    congr 1
    refine List.map_congr_left fun i hi => ?_
    have hi := List.mem_range.1 hi
    obtain ⟨hist, hist', c, c', g, g', he⟩ := step i hi
    exact c131_messages g g' rfl ((hlen i hi).trans (hlen' i hi).symm) he
  · intro i hi hist hist' c c' g g'
    obtain ⟨hist1, hist1', c1, c1', k, k', he⟩ := step i hi
    obtain ⟨rfl, rfl⟩ := iterations_unique g k
    obtain ⟨rfl, rfl⟩ := iterations_unique g' k'
    obtain ⟨e1, e2⟩ := c131_stream g g' rfl ((hlen i hi).trans (hlen' i hi).symm) he
    refine ⟨?_, e2⟩
    clear g g' he k k'
    induction e1 with
    | nil => rfl
    | cons h _ ih => rw [List.map_cons, List.map_cons, ih, h.1]

variable {table : List (Str × (Str × List (Expr F)))} {A : Str → Prop} {Γ : Str → Trust}

/-- C132: the messages of the executions of a thread are the same up to those of the requests meant for secrets. -/
theorem c132_messages {test : List (Expr F)} {τ : Trust} (h : GuardsBlock table A Γ test τ) {c c' : Context F} :
    ∀ {nets nets' : List Net} {hist hist' : List (Str × List Record)} {base base' : Context F},
    Iterations test base nets hist c → Iterations test base' nets' hist' c' → nets.length = nets'.length →
    (∀ (i : Nat) (m m' : Net), nets[i]? = some m → nets'[i]? = some m' → m.multipart = m'.multipart ∧ Unhearing table A m m') →
    ContextKept table A Γ base base' → Each (Each (SecretPair table A)) (sentIn test base nets) (sentIn test base' nets')
  | [], [], _, _, _, _, _, _, _, _, _ => .nil
  | [], _ :: _, _, _, _, _, _, _, hl, _, _ => by simp at hl
  | _ :: _, [], _, _, _, _, _, _, hl, _, _ => by simp at hl
  | n :: nets, n' :: nets', _, _, base, base', g, g', hl, hm, hb => by
    obtain ⟨v, s, hist, e1, rfl, e3⟩ := iterations_uncons g n nets rfl
    obtain ⟨v', s', hist', e1', rfl, e3'⟩ := iterations_uncons g' n' nets' rfl
    obtain ⟨m1, m2⟩ := hm 0 n n' rfl rfl
    have key := c132_block m1 m2 h ⟨base, [], []⟩ ⟨base', [], []⟩ ⟨hb, .nil, rfl⟩
    unfold sentIn
    rw [e1, e1'] at key ⊢
    rcases key with ⟨_, _, _, _, _, k⟩ | ⟨_, k, _⟩ | ⟨k | k, _⟩ | ⟨k | k, _⟩
    · exact .cons k.sent (c132_messages h e3 e3' (by simpa using hl) (fun i m m' h1 h2 => hm (i + 1) m m' (by simpa using h1) (by simpa using h2))
        ⟨k.ctx.left, k.ctx.right, k.ctx.variables, .nil⟩)
    all_goals cases k

theorem each_flat_map {α β : Type} {R : β → β → Prop} {f g : α → List β} {l : List α} (h : ∀ a ∈ l, Each R (f a) (g a)) : Each R (l.flatMap f) (l.flatMap g) := by
  induction l with
  | nil => exact .nil
  | cons a l ih =>
    rw [List.flatMap_cons, List.flatMap_cons]
    exact each_append (h a List.mem_cons_self) (ih fun b hb => h b (List.mem_cons_of_mem _ hb))

/-- C132 for `am test`: two runs of a test with the same number of threads and iterations, from contexts that differ in the secrets, in which every
execution ends with a value and which are not stopped, with servers that do not hear of the secrets unless they are meant to. All messages but those of the
requests meant for secrets are the same, thread by thread and execution by execution; so is what every execution prints, and so are all records of the other
requests. -/
theorem c132_run {record record' stat stat' : Bool} {base base' : Context F} {name : Str} {test : List (Expr F)} {t n : Nat} {l l' : List RunStep}
    {r r' : Run F} {τ : Trust} (h : NamedRun record stat base name test t n l r) (h' : NamedRun record' stat' base' name test t n l' r')
    (hd : r.workersDone = true) (hd' : r'.workersDone = true) (hs : RunStep.stop ∉ l) (hs' : RunStep.stop ∉ l')
    (hn : ∀ i j m m', RunStep.work i m ∈ l → RunStep.work j m' ∈ l' → m.multipart = m'.multipart ∧ Unhearing table A m m')
    (hb : ContextKept table A Γ base.clone base'.clone) (hk : GuardsBlock table A Γ test τ)
    (hall : ∀ i, i < t → ∃ hist c, Iterations test base.clone (executions record stat base name test t n l i) hist c)
    (hall' : ∀ i, i < t → ∃ hist c, Iterations test base'.clone (executions record' stat' base' name test t n l' i) hist c) :
    Each (Each (SecretPair table A)) (allSent record stat base name test t n l) (allSent record' stat' base' name test t n l') ∧
    ∀ i, i < t → ∀ hist hist' c c', Iterations test base.clone (executions record stat base name test t n l i) hist c →
      Iterations test base'.clone (executions record' stat' base' name test t n l' i) hist' c' →
      Each (fun p q => p.1 = q.1 ∧ Each (KeptRecord A) p.2 q.2) hist hist' := by
  have hlen := (c49_per_thread record stat base name test t n l r h hd hs hall).1
  have hlen' := (c49_per_thread record' stat' base' name test t n l' r' h' hd' hs' hall').1
  have nets : ∀ i (k : Nat) m m', (executions record stat base name test t n l i)[k]? = some m →
      (executions record' stat' base' name test t n l' i)[k]? = some m' → m.multipart = m'.multipart ∧ Unhearing table A m m' := by
    intro i k m m' hm hm'
    obtain ⟨x, hx, he⟩ := evalNets_mem (List.mem_of_getElem? hm)
    obtain ⟨x', hx', he'⟩ := evalNets_mem (List.mem_of_getElem? hm')
    have := hn i i x.2 x'.2 (inputs_mem hx) (inputs_mem hx')
    rwa [he, he'] at this
  constructor
  · refine each_flat_map fun i hi => ?_
    have hi := List.mem_range.1 hi
    obtain ⟨hist, c, g⟩ := hall i hi
    obtain ⟨hist', c', g'⟩ := hall' i hi
    exact c132_messages hk g g' ((hlen i hi).trans (hlen' i hi).symm) (nets i) hb
  · intro i hi hist hist' c c' g g'
    exact (c132_thread hk g g' ((hlen i hi).trans (hlen' i hi).symm) (nets i) hb).1

/-! ## Examples -/

/-- Concrete case for `c131_run` and `c132_run`: the test `a()` runs once, whatever the value of the variable in its path, with records written. -/
theorem kept_once (v : Str) : RunStep.stop ∉ onceWith deadNet ∧
    (∃ r, NamedRun (F := F) true true ⟨[(c!"n", .str v)], [(c!"a", (c!"GET http://h/{n}", []))], []⟩ c!"t" steadyTest 1 1 (onceWith deadNet) r ∧ r.workersDone = true) ∧
    (∃ hist c, Iterations (F := F) steadyTest (Context.clone ⟨[(c!"n", .str v)], [(c!"a", (c!"GET http://h/{n}", []))], []⟩)
      (executions (F := F) true true ⟨[(c!"n", .str v)], [(c!"a", (c!"GET http://h/{n}", []))], []⟩ c!"t" steadyTest 1 1 (onceWith deadNet) 0) hist c ∧
      hist.length = 1) := by
  refine ⟨fun h => ?_, ⟨_, rfl, rfl⟩, _, _, Iterations.snoc (nets := []) .nil rfl, rfl⟩
  rw [onceWith, List.mem_replicate] at h
  cases h.2

/-- Concrete case for `c131_run`: the batch written fits the file. -/
example : letI := rt64 ⟨true, fun c => [c], id⟩
    ∃ hist c, Iterations (F := F64) steadyTest spreadBase.clone (executions (F := F64) true true spreadBase c!"t" steadyTest 1 1 (onceWith deadNet) 0) hist c ∧
    ∀ b ∈ hist.zipIdx.map (fun p => (⟨p.1.2, c!"t", 0, p.2⟩ : Batch)), BatchFits b := by
  letI := rt64 ⟨true, fun c => [c], id⟩
  refine ⟨_, _, Iterations.snoc (nets := []) .nil rfl, fun b hb => ?_⟩
  obtain rfl := List.mem_singleton.1 hb
  refine ⟨fun r hr => ?_, (by decide +kernel : (0 : Nat) < 2 ^ 32), (by decide +kernel : (0 : Nat) < 2 ^ 32), (by decide +kernel : (1 : Nat) < 2 ^ 63), ?_⟩
  · obtain rfl := List.mem_singleton.1 hr
    unfold RecordFits; decide +kernel
  · decide +kernel

/-- Concrete case for `c132_run`: the contexts of the two runs differ in the secret `n`, which the request `a` is meant to carry. -/
example : ContextKept (F := F) [(c!"a", (c!"GET http://h/{n}", []))] (· = c!"a") (fun x => if x = c!"n" then .any else .same)
      (Context.clone ⟨[(c!"n", .str c!"x")], [(c!"a", (c!"GET http://h/{n}", []))], []⟩) (Context.clone ⟨[(c!"n", .str c!"y")], [(c!"a", (c!"GET http://h/{n}", []))], []⟩) ∧
    GuardsBlock (F := F) [(c!"a", (c!"GET http://h/{n}", []))] (· = c!"a") (fun x => if x = c!"n" then .any else .same) steadyTest .map ∧
    ∀ i j m m', RunStep.work i m ∈ onceWith deadNet → RunStep.work j m' ∈ onceWith deadNet →
      m.multipart = m'.multipart ∧ Unhearing (F := F) [(c!"a", (c!"GET http://h/{n}", []))] (· = c!"a") m m' := by
  refine ⟨⟨rfl, rfl, fun x => ?_, .nil⟩, .last _ _ (.meant _ _ _ _ rfl rfl (.nil _) (by simp [calledList])), fun i j m m' h h' => ?_⟩
  · by_cases hx : x = c!"n"
    · subst hx
      exact .inr ⟨.str c!"x", .str c!"y", rfl, rfl, trivial⟩
    · left
      simp [Context.get, Context.clone, amGet, Ne.symm hx]
  · rw [onceWith, List.mem_replicate] at h h'
    cases h.2
    cases h'.2
    refine ⟨rfl, fun _ _ _ f _ hf hm => ?_⟩
    obtain ⟨_, _, _, _, _, h1, _⟩ := hm
    simp [amGet, Ne.symm hf] at h1

end Am
