import Verif.Proofs.Answers
import Verif.Props.Spread
import Verif.Props.Swap
import Verif.Props.Chain
import Verif.Props.HeaderCase
/-! # C125: answers have no influence on what is sent and printed, unless the script reads them -/
set_option linter.unusedSimpArgs false
set_option linter.unusedSectionVars false
namespace Am
open Spec
variable {F : Type} [Rt F] {table : List (Str × (Str × List (Expr F)))} {Γ : Str → Trust} {net net' : Net}

/-- C125: statements that use untrusted answers only where nothing is decided, sent or printed with them, run with two networks that answer whatever
they like, from states with the same messages sent, the same text printed and the same trusted variables. Either both end with a value — with the trust
claimed — or with the same error, and then the same messages were sent, the same text was printed and the same requests recorded; or one of them crashes or
never ends, and what it has sent and printed begins what the other one has sent and printed. -/
theorem c125_block (hn : net.multipart = net'.multipart) {es : List (Expr F)} {τ : Trust} (h : CarriesBlock table Γ es τ) (s t : St F)
    (hs : Asked table Γ s t) :
    (∃ v w, (runBlock net es s).1 = .ok v ∧ (runBlock net' es t).1 = .ok w ∧ Trusted τ v w ∧ Asked table Γ (runBlock net es s).2 (runBlock net' es t).2) ∨
    (∃ m, (runBlock net es s).1 = .err m ∧ (runBlock net' es t).1 = .err m ∧ Asked table Γ (runBlock net es s).2 (runBlock net' es t).2) ∨
    (Stopped (runBlock net es s).1 ∧ (runBlock net es s).2.sent <+: (runBlock net' es t).2.sent ∧ (runBlock net es s).2.out <+: (runBlock net' es t).2.out) ∨
    (Stopped (runBlock net' es t).1 ∧ (runBlock net' es t).2.sent <+: (runBlock net es s).2.sent ∧ (runBlock net' es t).2.out <+: (runBlock net es s).2.out) :=
  (carries_block hn h .null .null (fun _ => rfl)).step s t hs

theorem each_refl {α : Type} {R : α → α → Prop} (h : ∀ a, R a a) : ∀ l : List α, Each R l l
  | [] => .nil
  | a :: l => .cons (h a) (each_refl h l)

theorem asked_refl {c : Context F} (hc : Suits Γ c) : ContextAsked c.requests Γ c c := by
  refine ⟨rfl, rfl, fun x => ?_, each_refl (fun _ => ⟨rfl, rfl⟩) _⟩
  cases hx : c.get x with
  | none => exact .inl ⟨rfl, rfl⟩
  | some v =>
    refine .inr ⟨v, v, rfl, rfl, ?_⟩
    cases hg : Γ x with
    | same => exact rfl
    | map => exact ⟨hc x v hx hg, hc x v hx hg⟩
    | any => exact trivial

/-- C125 for `am eval`: a script is evaluated twice, with two networks that answer whatever they like. If both evaluations end, the same messages were sent and
the same requests recorded; the same text is printed too if the value of the script, which is printed at the end, is trusted. Otherwise the evaluation that
crashes or never ends has sent and printed the beginning of what the other one has sent and printed. -/
theorem c125_text (hn : net.multipart = net'.multipart) {text : Str} {items : List (Item F)} {τ : Trust} (ht : Accepted text items) (s : St F)
    (hc : Suits Γ s.ctx) (h : CarriesBlock (addRequests items s.ctx.requests) Γ (exprsOf items) τ) :
    (((evalText net text s).1 = .ok () ∧ (evalText net' text s).1 = .ok () ∧ (evalText net text s).2.sent = (evalText net' text s).2.sent ∧
      (τ = .same → (evalText net text s).2.out = (evalText net' text s).2.out) ∧
      Each SameAsked (evalText net text s).2.ctx.records (evalText net' text s).2.ctx.records)) ∨
    (Stopped (evalText net text s).1 ∧ (evalText net text s).2.sent <+: (evalText net' text s).2.sent ∧
      (evalText net text s).2.out <+: (evalText net' text s).2.out) ∨
    (Stopped (evalText net' text s).1 ∧ (evalText net' text s).2.sent <+: (evalText net text s).2.sent ∧
      (evalText net' text s).2.out <+: (evalText net text s).2.out) := by
  have hs : Asked (addRequests items s.ctx.requests) Γ (withItems s items) (withItems s items) :=
    ⟨asked_refl (c := (withItems s items).ctx) hc, rfl, rfl⟩
  have grow : ∀ (x : Res (Value F) × St F), Behind x.2 (match (motive := _ → Res Unit × St F) x with
      | (.ok v, s) => sayLine v.display s
      | (.err e, s) => sayLine e s
      | (.panic, s) => (.panic, s)
      | (.hang, s) => (.hang, s)).2 := by
    rintro ⟨r, s⟩
    have hp : ∀ m : Str, Behind s (sayLine (F := F) m s).2 := fun m =>
      ⟨List.prefix_refl _, by show s.out <+: s.out ++ m ++ _; rw [List.append_assoc]; exact List.prefix_append _ _⟩
    cases r with
    | ok v => exact hp _
    | err e => exact hp _
    | panic => exact Behind.refl _
    | hang => exact Behind.refl _
  have stop : ∀ (x : Res (Value F) × St F), Stopped x.1 → (match (motive := _ → Res Unit × St F) x with
      | (.ok v, s) => sayLine v.display s
      | (.err e, s) => sayLine e s
      | (.panic, s) => (.panic, s)
      | (.hang, s) => (.hang, s)).2 = x.2 ∧ Stopped (match (motive := _ → Res Unit × St F) x with
      | (.ok v, s) => sayLine v.display s
      | (.err e, s) => sayLine e s
      | (.panic, s) => (.panic, s)
      | (.hang, s) => (.hang, s)).1 := by
    rintro ⟨r, s⟩ (h | h) <;> (dsimp only at h; subst h)
    · exact ⟨rfl, .inl rfl⟩
    · exact ⟨rfl, .inr rfl⟩
  have key := c125_block hn h _ _ hs
  rw [evalText_run net ht s, evalText_run net' ht s]
  generalize runBlock net (exprsOf items) (withItems s items) = x at key ⊢
  generalize runBlock net' (exprsOf items) (withItems s items) = y at key ⊢
  rcases key with ⟨v, w, h1, h2, h3, h4⟩ | ⟨m, h1, h2, h4⟩ | ⟨h1, h2⟩ | ⟨h1, h2⟩
  · obtain ⟨r, s1⟩ := x
    obtain ⟨r', t1⟩ := y
    dsimp only at h1 h2 h4
    subst h1 h2
    refine .inl ⟨rfl, rfl, h4.sent, fun hτ => ?_, h4.ctx.records⟩
    subst hτ
    show s1.out ++ v.display ++ _ = t1.out ++ w.display ++ _
    rw [h4.out, show v = w from h3]
  · obtain ⟨r, s1⟩ := x
    obtain ⟨r', t1⟩ := y
    dsimp only at h1 h2 h4
    subst h1 h2
    refine .inl ⟨rfl, rfl, h4.sent, fun _ => ?_, h4.ctx.records⟩
    show s1.out ++ m ++ _ = t1.out ++ m ++ _
    rw [h4.out]
  · obtain ⟨k1, k2⟩ := stop x h1
    have : Behind x.2 y.2 := h2
    exact .inr (.inl ⟨k2, k1 ▸ this.trans (grow y)⟩)
  · obtain ⟨k1, k2⟩ := stop y h1
    have : Behind y.2 x.2 := h2
    exact .inr (.inr ⟨k2, k1 ▸ this.trans (grow x)⟩)

/-! ## Tests -/

theorem iterations_uncons {test : List (Expr F)} {base c : Context F} {nets : List Net} {hist : List (Str × List Record)} (h : Iterations test base nets hist c) :
    ∀ m rest, nets = m :: rest → ∃ v s hist', runBlock m test ⟨base, [], []⟩ = (.ok v, s) ∧ hist = (s.out, s.ctx.records) :: hist' ∧
      Iterations test { s.ctx with records := [] } rest hist' c := by
  induction h with
  | nil => intro m rest h; cases h
  | @snoc nets hist c net v s h hr ih =>
    intro m rest he
    cases nets with
    | nil =>
      cases he
      obtain ⟨rfl, rfl⟩ := iterations_unique h .nil
      exact ⟨v, s, [], hr, rfl, .nil⟩
    | cons m' nets =>
      cases he
      obtain ⟨v', s', hist', e1, e2, e3⟩ := ih m nets rfl
      exact ⟨v', s', hist' ++ [(s.out, s.ctx.records)], e1, by rw [e2]; rfl, e3.snoc hr⟩

theorem iterations_asked {mp : List Part → Option (List UInt8)} {test : List (Expr F)} {τ : Trust} (h : CarriesBlock table Γ test τ) :
    ∀ (nets nets' : List Net) {base base' c c' : Context F} {hist hist' : List (Str × List Record)}, nets.length = nets'.length →
      (∀ m ∈ nets, m.multipart = mp) → (∀ m ∈ nets', m.multipart = mp) → ContextAsked table Γ base base' → Iterations test base nets hist c →
      Iterations test base' nets' hist' c' → sentIn test base nets = sentIn test base' nets' ∧ Each SameAskedTurn hist hist'
  | [], [], base, base', c, c', hist, hist', _, _, _, _, hi, hi' => by
    have e := iterations_length hi
    have e' := iterations_length hi'
    rw [List.length_nil] at e e'
    rw [List.length_eq_zero_iff.1 e.symm, List.length_eq_zero_iff.1 e'.symm]
    exact ⟨rfl, .nil⟩
  | [], _ :: _, _, _, _, _, _, _, hl, _, _, _, _, _ => by cases hl
  | _ :: _, [], _, _, _, _, _, _, hl, _, _, _, _, _ => by cases hl
  | m :: rest, m' :: rest', base, base', c, c', hist, hist', hl, hm, hm', hb, hi, hi' => by
    obtain ⟨v, s, hist1, e1, rfl, e3⟩ := iterations_uncons hi m rest rfl
    obtain ⟨v', s', hist1', e1', rfl, e3'⟩ := iterations_uncons hi' m' rest' rfl
    have hn : m.multipart = m'.multipart := (hm m List.mem_cons_self).trans (hm' m' List.mem_cons_self).symm
    have key := c125_block hn h ⟨base, [], []⟩ ⟨base', [], []⟩ ⟨hb, rfl, rfl⟩
    rw [e1, e1'] at key
    have ha : Asked table Γ s s' := by
      rcases key with ⟨_, _, _, _, _, h⟩ | ⟨_, h, _⟩ | ⟨h | h, _⟩ | ⟨h | h, _⟩
      · exact h
      · cases h
      · cases h
      · cases h
      · cases h
      · cases h
    obtain ⟨k1, k2⟩ := iterations_asked (base := { s.ctx with records := [] }) (base' := { s'.ctx with records := [] }) h rest rest' (by simpa using hl) (fun x hx => hm x (List.mem_cons_of_mem _ hx)) (fun x hx => hm' x (List.mem_cons_of_mem _ hx))
      ⟨ha.ctx.left, ha.ctx.right, ha.ctx.variables, .nil⟩ e3 e3'
    refine ⟨?_, .cons ⟨ha.out, ha.ctx.records⟩ k2⟩
    unfold sentIn
    rw [e1, e1']
    dsimp only
    rw [k1, ha.sent]

theorem executions_encode {record stat : Bool} {base : Context F} {name : Str} {test : List (Expr F)} {t n : Nat} {l : List RunStep}
    {mp : List Part → Option (List UInt8)} (hl : Encodes mp l) (i : Nat) : ∀ m ∈ executions record stat base name test t n l i, m.multipart = mp := by
  intro m hm
  obtain ⟨x, hx, he⟩ := evalNets_mem hm
  have := hl i x.2 (inputs_mem hx)
  rwa [he] at this

/-- C125 for `am test`: two runs of a test with the same number of threads and iterations but other answers, in which every execution ends with a value and
which are not stopped, send the same messages, thread by thread and execution by execution, and every execution prints the same text and records the same
requests. -/
theorem c125_run {record record' stat stat' : Bool} {base : Context F} {name : Str} {test : List (Expr F)} {t n : Nat} {l l' : List RunStep} {r r' : Run F}
    {τ : Trust} {mp : List Part → Option (List UInt8)} (h : NamedRun record stat base name test t n l r) (h' : NamedRun record' stat' base name test t n l' r')
    (hd : r.workersDone = true) (hd' : r'.workersDone = true) (hs : RunStep.stop ∉ l) (hs' : RunStep.stop ∉ l') (hl : Encodes mp l) (hl' : Encodes mp l')
    (hc : Suits Γ base) (hk : CarriesBlock base.requests Γ test τ)
    (hall : ∀ i, i < t → ∃ hist c, Iterations test base.clone (executions record stat base name test t n l i) hist c)
    (hall' : ∀ i, i < t → ∃ hist c, Iterations test base.clone (executions record' stat' base name test t n l' i) hist c) :
    allSent record stat base name test t n l = allSent record' stat' base name test t n l' ∧
    ∀ i, i < t → ∀ hist hist' c c', Iterations test base.clone (executions record stat base name test t n l i) hist c →
      Iterations test base.clone (executions record' stat' base name test t n l' i) hist' c' → Each SameAskedTurn hist hist' := by
  have hlen := (c49_per_thread record stat base name test t n l r h hd hs hall).1
  have hlen' := (c49_per_thread record' stat' base name test t n l' r' h' hd' hs' hall').1
  have hb : ContextAsked base.requests Γ base.clone base.clone := asked_refl (c := base.clone) hc
  have step : ∀ i, i < t → ∀ hist hist' c c', Iterations test base.clone (executions record stat base name test t n l i) hist c →
      Iterations test base.clone (executions record' stat' base name test t n l' i) hist' c' → _ := fun i hi hist hist' c c' g g' =>
    iterations_asked (mp := mp) hk _ _ ((hlen i hi).trans (hlen' i hi).symm) (executions_encode hl i) (executions_encode hl' i) hb g g'
  refine ⟨?_, fun i hi hist hist' c c' g g' => (step i hi hist hist' c c' g g').2⟩
  unfold allSent
  rw [List.flatMap_def, List.flatMap_def]
  congr 1
  refine List.map_congr_left fun i hi => ?_
  obtain ⟨hist, c, g⟩ := hall i (List.mem_range.1 hi)
  obtain ⟨hist', c', g'⟩ := hall' i (List.mem_range.1 hi)
  exact (step i (List.mem_range.1 hi) hist hist' c c' g g').1

/-! ## Examples and counterexamples -/

/-- Trust in the variables of the examples: `r` is the answer of a request, `k` depends on it, the others are the same. -/
def exampleTrust (x : Str) : Trust := if x = c!"r" then .map else if x = c!"k" then .any else .same

/-- The requests of the examples. -/
def exampleTable : List (Str × (Str × List (Expr F))) :=
  [(c!"a", (c!"GET http://a/{u}", [.binary ⟨.Eq, c!"=="⟩ (.ident c!"status") (.int 200)])), (c!"b", (c!"GET http://b/{u}", []))]

/-- `let u = "x"; let r = a(); let k = r.status == 200 ; b(r.body, k); println("done {}", u)` -/
def exampleScript : List (Expr F) :=
  [.letE c!"u" (.str c!"x"), .letE c!"r" (.call c!"a" []), .letE c!"k" (.binary ⟨.Eq, c!"=="⟩ (.field (.ident c!"r") c!"status") (.int 200)),
    .call c!"b" [.field (.ident c!"r") c!"body", .ident c!"k"], .call c!"println" [.str c!"done {u}", .ident c!"u"]]

/-- Concrete case for C125: the answer is kept, looked into, compared and passed on as an argument, which requests ignore. -/
theorem example_carries : CarriesBlock (F := F) exampleTable exampleTrust exampleScript .same := by
  have hole : ∀ c : Char, c = 'a' ∨ c = 'b' → ∀ ps x, Pieces ((c!"GET http://" ++ c :: c!"/{u}")) ps → Piece.hole x ∈ ps → exampleTrust x = .same := by
    intro c hc ps x hp hx
    have : Pieces (c!"GET http://" ++ c :: c!"/{u}") ((c!"GET http://" ++ c :: c!"/").map .lit ++ [.hole c!"u"]) := by
      rcases hc with rfl | rfl
      · simp only [List.map_cons, List.map_nil, List.cons_append, List.nil_append]
        repeat (first | refine .lit (matchAt_none.1 (by decide +kernel)) ?_)
        exact .hole (h := c!"{u}") (rest := []) ⟨[], [], 'u', [], by decide, by decide, by decide, by decide, by decide, by decide⟩ .nil
      · simp only [List.map_cons, List.map_nil, List.cons_append, List.nil_append]
        repeat (first | refine .lit (matchAt_none.1 (by decide +kernel)) ?_)
        exact .hole (h := c!"{u}") (rest := []) ⟨[], [], 'u', [], by decide, by decide, by decide, by decide, by decide, by decide⟩ .nil
    rw [pieces_unique hp this] at hx
    have : x = c!"u" := by simpa using hx
    subst this
    decide
  have hr : Carries (F := F) exampleTable exampleTrust (.ident c!"r") .map := .ident c!"r"
  have hk : Carries (F := F) exampleTable exampleTrust (.ident c!"k") .any := .ident c!"k"
  have hu : Carries (F := F) exampleTable exampleTrust (.ident c!"u") .same := .ident c!"u"
  refine .cons _ _ _ (.forget _ _ (.letE _ _ (.str _))) (by simp) (.cons _ _ _ (.forget _ _ (.letE _ _ ?_)) (by simp) (.cons _ _ _ (.letE c!"k" _ ?_) (by simp)
    (.cons _ _ _ (.forget _ .map ?_) (by simp) (.last _ _ ?_))))
  · exact .request _ _ _ _ rfl (.nil _) (hole 'a' (.inl rfl)) (by simp [calledList, called])
  · exact .compare _ _ _ rfl (.fieldAny _ _ hr) (.forget _ _ (.int _))
  · exact .request _ _ _ _ rfl (.cons _ _ _ (.fieldAny _ _ hr) (.cons _ _ _ hk (.nil _))) (hole 'b' (.inr rfl)) (by simp [calledList])
  · exact .native _ _ rfl (.cons _ _ _ (.str _) (.cons _ _ _ hu (.nil _)))

/-- The text of the example. -/
def exampleText : Str :=
  c!"request a `GET http://a/{u}`[ status == 200 ] request b `GET http://b/{u}` let u = \"x\"; let r = a(); let k = r.status == 200; b(r.body, k); println(\"done {u}\", u)"

set_option maxRecDepth 20000 in
/-- The same script as a text: two servers, the same messages. -/
example : messages (answering c!"{\"x\": 1}") exampleText = [c!"GET http://a/x", c!"GET http://b/x"] ∧
    messages (replying c!"HTTP/1.1 500 Oops\n\n") exampleText = [c!"GET http://a/x", c!"GET http://b/x"] := ⟨by decide +kernel, by decide +kernel⟩

/-- Without such a condition answers have an influence: a script that puts an answer into a message sends what the server wants. -/
theorem c125_reads :
    messages (replying c!"HTTP/1.1 200 OK\n\nx") c!"request a `GET http://a/` request b `GET http://b/{t}` let t = a().body; b()" = [c!"GET http://a/", c!"GET http://b/x"] ∧
    messages (replying c!"HTTP/1.1 200 OK\n\ny") c!"request a `GET http://a/` request b `GET http://b/{t}` let t = a().body; b()" = [c!"GET http://a/", c!"GET http://b/y"] :=
  ⟨by decide +kernel, by decide +kernel⟩

/-- Even a script that reads no answer can be stopped by one: after the body `1!` nothing more is sent, and the program never ends. -/
theorem c125_stops : letI := rt64 ⟨true, fun c => [c], id⟩
    (match (evalText (F := F64) (answering c!"1!") c!"request a `GET http://a/` a(); a()" ⟨Context.new, [], []⟩).1 with | .hang => true | _ => false) = true ∧
    messages (answering c!"1!") c!"request a `GET http://a/` a(); a()" = [c!"GET http://a/"] ∧
    messages (answering c!"1") c!"request a `GET http://a/` a(); a()" = [c!"GET http://a/", c!"GET http://a/"] :=
  ⟨by decide +kernel, by decide +kernel, by decide +kernel⟩

/-- One thread that executes a test with one request once. -/
def onceWith (net : Net) : List RunStep := List.replicate 7 (.work 0 net)

/-- Concrete case for `c125_run`: the test `a()` runs once, with a server that cannot be reached and with one that answers. -/
example : letI := rt64 ⟨true, fun c => [c], id⟩
    ∀ net ∈ [deadNet, answering c!"{}"], Encodes (fun _ => none) (onceWith net) ∧ RunStep.stop ∉ onceWith net ∧
    (∃ r, NamedRun (F := F64) false true spreadBase c!"t" steadyTest 1 1 (onceWith net) r ∧ r.workersDone = true) ∧
    (∃ hist c, Iterations (F := F64) steadyTest spreadBase.clone (executions (F := F64) false true spreadBase c!"t" steadyTest 1 1 (onceWith net) 0) hist c) := by
  letI := rt64 ⟨true, fun c => [c], id⟩
  have go : ∀ net : Net, net.multipart = (fun _ => none) →
      ((Run.init (List.replicate 1 (fresh (F := F64) false spreadBase c!"t" steadyTest))).run ⟨true, 1 / 1, true⟩ (onceWith net)).map Run.workersDone = some true →
      (match (runBlock (F := F64) net steadyTest ⟨spreadBase.clone, [], []⟩).1 with | .ok _ => true | _ => false) = true →
      (executions (F := F64) false true spreadBase c!"t" steadyTest 1 1 (onceWith net) 0).length = 1 →
      Encodes (fun _ => none) (onceWith net) ∧ RunStep.stop ∉ onceWith net ∧
      (∃ r, NamedRun (F := F64) false true spreadBase c!"t" steadyTest 1 1 (onceWith net) r ∧ r.workersDone = true) ∧
      (∃ hist c, Iterations (F := F64) steadyTest spreadBase.clone (executions (F := F64) false true spreadBase c!"t" steadyTest 1 1 (onceWith net) 0) hist c) := by
    intro net hm hr hok hlen
    have he : executions (F := F64) false true spreadBase c!"t" steadyTest 1 1 (onceWith net) 0 = [net] := by
      refine List.eq_replicate_iff.2 ⟨hlen, fun m hm => ?_⟩
      obtain ⟨x, hx, he⟩ := evalNets_mem hm
      have := inputs_mem hx
      rw [onceWith, List.mem_replicate] at this
      rw [← he]
      injection this.2
    refine ⟨fun i m h => ?_, fun h => ?_, run_exists hr, ?_⟩
    · rw [onceWith, List.mem_replicate] at h
      cases h.2
      exact hm
    · rw [onceWith, List.mem_replicate] at h
      cases h.2
    · rw [he]
      rcases hx : runBlock (F := F64) net steadyTest ⟨spreadBase.clone, [], []⟩ with ⟨r, s⟩
      rw [hx] at hok
      cases r with
      | ok v => exact ⟨_, _, Iterations.snoc (nets := []) .nil hx⟩
      | err e => cases hok
      | panic => cases hok
      | hang => cases hok
  intro net hnet
  rcases List.mem_cons.1 hnet with rfl | hnet
  · exact go deadNet rfl (by decide +kernel) (by decide +kernel) (by decide +kernel)
  · rcases List.mem_singleton.1 hnet with rfl
    exact go _ rfl (by decide +kernel) (by decide +kernel) (by decide +kernel)

end Am
