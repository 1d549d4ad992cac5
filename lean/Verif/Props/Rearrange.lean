import Verif.Spec.Rearrange
import Verif.Proofs.Eval
import Verif.Props.Parsing
import Verif.Props.Accepts
import Verif.Props.Exit
import Verif.Props.Joining
import Verif.Props.Timing
/-! # C90: it does not matter where in a source text a request or a test is defined -/
set_option linter.unusedSimpArgs false
set_option linter.unusedSectionVars false
namespace Am
open Spec
variable {F : Type} [Rt F]

/-! ## Evaluation in contexts of the same meaning -/

/-- The same outcome in alike states. -/
def IndistinctRes {α : Type} (x y : Res α × St F) : Prop := x.1 = y.1 ∧ Indistinct x.2 y.2

def IndistinctM {α : Type} (_ : Nat) (m m' : M F α) : Prop := ∀ s t, Indistinct s t → IndistinctRes (m s) (m' t)

theorem indistinct_refl (s : St F) : Indistinct s s := ⟨⟨rfl, rfl, fun _ => rfl⟩, rfl, rfl⟩

theorem indistinct_lift {α : Type} (n : Nat) (r : Res α) : IndistinctM (F := F) n (M.lift r) (M.lift r) := fun _ _ h => ⟨rfl, h⟩

theorem indistinct_bind {α β : Type} {m n : Nat} {x y : M F α} {f g : α → M F β} (h : IndistinctM m x y) (h' : ∀ a, IndistinctM n (f a) (g a)) :
    IndistinctM (m + n) (x >>= f) (y >>= g) := by
  intro s t hs
  have h1 := h s t hs
  show IndistinctRes (M.bind x f s) (M.bind y g t)
  unfold M.bind
  rcases hx : x s with ⟨r, s1⟩
  rcases hy : y t with ⟨r', t1⟩
  rw [hx, hy] at h1
  obtain ⟨h1, h2⟩ := h1
  dsimp only at h1
  subst h1
  cases r with
  | ok a => exact h' a s1 t1 h2
  | err e => exact ⟨rfl, h2⟩
  | panic => exact ⟨rfl, h2⟩
  | hang => exact ⟨rfl, h2⟩

theorem indistinct_closed : Closed (F := F) IndistinctM where
  pure _ := fun _ _ h => ⟨rfl, h⟩
  bind := indistinct_bind
  mono := fun _ h => h
  ident n := by
    intro s t h
    have hg : s.ctx.get n = t.ctx.get n := by unfold Context.get; rw [h.1.1]
    unfold readVar
    rw [hg]
    split <;> exact ⟨rfl, h⟩
  lift _ _ := indistinct_lift 0 _

theorem indistinct_write (n : Str) (v : Value F) : IndistinctM 0 (writeVar n v) (writeVar n v) := by
  intro s t ⟨⟨h1, h2, h3⟩, h4, h5⟩
  exact ⟨rfl, ⟨congrArg (amInsert n v) h1, h2, h3⟩, h4, h5⟩

theorem indistinct_panics : AllowsPanic (F := F) IndistinctM := fun _ => indistinct_lift 0 _

theorem indistinct_say (text : Str) : IndistinctM (F := F) 0 (M.modify fun s => { s with out := s.out ++ text }) (M.modify fun s => { s with out := s.out ++ text }) := by
  intro s t ⟨h1, h2, h3⟩
  exact ⟨rfl, h1, h2, congrArg (· ++ text) h3⟩

theorem indistinct_native (name : Str) (args : List (Value F)) : IndistinctM 1 (callNative name args) (callNative name args) := by
  unfold callNative
  simp only [List.append_assoc]
  split
  · exact indistinct_bind (m := 1) (n := 0) (indistinct_lift 1 _) fun v => indistinct_bind (m := 0) (n := 0) (indistinct_say _) fun _ => indistinct_closed.pure _
  · split
    · exact indistinct_bind (m := 1) (n := 0) (indistinct_lift 1 _) fun v => indistinct_bind (m := 0) (n := 0) (indistinct_say _) fun _ => indistinct_closed.pure _
    · repeat (first | exact indistinct_lift 1 _ | split)

theorem indistinct_inLocal {α : Type} (map : List (Str × Value F)) (m : M F α) : IndistinctM 0 (inLocal map m) (inLocal map m) := by
  intro s t ⟨h1, h2, h3⟩
  unfold inLocal
  rw [h2, h3]
  rcases m { ctx := Context.ofMap map, sent := t.sent, out := t.out } with ⟨r, u⟩
  cases r <;> exact ⟨rfl, h1, rfl, rfl⟩

/-- `callRequest` once the message is rendered. -/
def exchangeOf (net : Net) (call : Call F) (name : Str) (asserts : List (Expr F)) (text : Str) (before : List Str) : M F (Value F) :=
  M.modify (fun s => { s with sent := s.sent ++ [text] }) >>= fun _ => M.lift (send net before text) >>= fun p =>
    M.lift (p.2.1.toMap (F := F)) >>= fun map => inLocal map (evalAsserts call asserts) >>= fun q =>
    M.modify (fun s => { s with ctx := s.ctx.push ⟨name, p.2.2.1, p.1, p.2.1, q.1, p.2.2.2⟩ }) >>= fun _ => M.pure (Value.map q.2)

theorem callRequest_exchange (net : Net) (call : Call F) (name msg : Str) (asserts : List (Expr F)) (s : St F) :
    callRequest net call name msg asserts s = exchangeOf net call name asserts (render s.ctx msg) s.sent s := rfl

theorem indistinct_exchange (net : Net) (call : Call F) (name : Str) (asserts : List (Expr F)) (text : Str) (before : List Str) :
    IndistinctM 0 (exchangeOf net call name asserts text before) (exchangeOf net call name asserts text before) := by
  refine indistinct_bind (m := 0) (n := 0) (fun s t ⟨h1, h2, h3⟩ => ⟨rfl, h1, congrArg (· ++ [text]) h2, h3⟩) fun _ => ?_
  refine indistinct_bind (m := 0) (n := 0) (indistinct_lift 0 _) fun p => ?_
  refine indistinct_bind (m := 0) (n := 0) (indistinct_lift 0 _) fun map => ?_
  refine indistinct_bind (m := 0) (n := 0) (indistinct_inLocal map _) fun q => ?_
  refine indistinct_bind (m := 0) (n := 0) (fun s t ⟨⟨h1, h2, h3⟩, h4, h5⟩ => ⟨rfl, ⟨h1, congrArg (· ++ [_]) h2, h3⟩, h4, h5⟩) fun _ => ?_
  exact indistinct_closed.pure _

theorem render_inner {c c' : Context F} (h : c.inner = c'.inner) (msg : Str) : render c msg = render c' msg := by
  unfold render
  have : varText c = varText c' := by
    funext n
    unfold varText Context.get
    rw [h]
  rw [this]

theorem indistinct_request (net : Net) (call : Call F) (name msg : Str) (asserts : List (Expr F)) :
    IndistinctM 1 (callRequest net call name msg asserts) (callRequest net call name msg asserts) := by
  intro s t hs
  rw [callRequest_exchange, callRequest_exchange, render_inner hs.1.1, hs.2.1]
  exact indistinct_exchange net call name asserts _ _ s t hs

theorem indistinct_callAt (net : Net) : ∀ (n : Nat) (name : Str) (args : List (Value F)), IndistinctM 1 (callAt net n name args) (callAt net n name args)
  | 0, name, args => by
    intro s t hs
    unfold callAt
    rw [hs.1.2.2 name]
    cases t.ctx.request name with
    | some p => exact ⟨rfl, hs⟩
    | none => exact indistinct_native name args s t hs
  | n + 1, name, args => by
    intro s t hs
    unfold callAt
    rw [hs.1.2.2 name]
    cases t.ctx.request name with
    | some p => exact indistinct_request net _ name _ _ s t hs
    | none => exact indistinct_native name args s t hs

theorem indistinct_runBlock (net : Net) (es : List (Expr F)) : IndistinctM 0 (runBlock net es) (runBlock net es) :=
  evalBlock_closed indistinct_closed (indistinct_callAt net 1) es .null (fun n _ v => indistinct_write n v) (fun _ _ => .inl indistinct_panics)

/-! ## Rearranged items -/

theorem exprsOf_append' (a b : List (Item F)) : exprsOf (a ++ b) = exprsOf a ++ exprsOf b := by
  induction a with
  | nil => rfl
  | cons i a ih => cases i <;> simp [exprsOf, ih]

theorem lastRequest_append (n : Str) (a b : List (Item F)) : lastRequest n (a ++ b) = (lastRequest n b).or (lastRequest n a) := by
  induction a with
  | nil => simp [lastRequest]
  | cons i a ih => cases i <;> simp [lastRequest, ih, Option.or_assoc]

theorem lastTest_append (n : Str) (a b : List (Item F)) : lastTest n (a ++ b) = (lastTest n b).or (lastTest n a) := by
  induction a with
  | nil => simp [lastTest]
  | cons i a ih => cases i <;> simp [lastTest, ih, Option.or_assoc]

/-- C90: the expressions keep their order, and every name means the same request and the same test. -/
theorem c90_tables {is is' : List (Item F)} (h : Rearranged is is') :
    exprsOf is = exprsOf is' ∧ (∀ n, lastRequest n is = lastRequest n is') ∧ ∀ n, lastTest n is = lastTest n is' := by
  induction h with
  | refl is => exact ⟨rfl, fun _ => rfl, fun _ => rfl⟩
  | swap a b i j is hij _ ih =>
    obtain ⟨h1, h2, h3⟩ := ih
    rw [← h1]
    refine ⟨?_, fun n => ?_, fun n => ?_⟩
    · rw [exprsOf_append', exprsOf_append']
      cases hij <;> rfl
    · rw [← h2, lastRequest_append, lastRequest_append]
      congr 1
      cases hij with
      | requests n1 n2 m m' as as' hne =>
        simp only [lastRequest]
        by_cases e1 : n1 = n
        · have e2 : ¬ n2 = n := fun e => hne (e1.trans e.symm)
          simp [e1, e2]
        · simp [e1]
      | _ => rfl
    · rw [← h3, lastTest_append, lastTest_append]
      congr 1
      cases hij with
      | tests n1 n2 b1 b2 hne =>
        simp only [lastTest]
        by_cases e1 : n1 = n
        · have e2 : ¬ n2 = n := fun e => hne (e1.trans e.symm)
          simp [e1, e2]
        · simp [e1]
      | _ => rfl

/-! ## Texts -/

/-- What the parser makes of rearranged items. -/
theorem rearranged_source {is is' : List (Item F)} (h : Rearranged is is') :
    (is.foldl addItem ⟨[], [], []⟩).exprs = (is'.foldl addItem ⟨[], [], []⟩).exprs ∧
    (∀ n, amGet n (is.foldl addItem ⟨[], [], []⟩).requests = amGet n (is'.foldl addItem ⟨[], [], []⟩).requests) ∧
    (∀ n, amGet n (is.foldl addItem ⟨[], [], []⟩).tests = amGet n (is'.foldl addItem ⟨[], [], []⟩).tests) ∧
    KeysNodup (is.foldl addItem ⟨[], [], []⟩).requests ∧ KeysNodup (is'.foldl addItem ⟨[], [], []⟩).requests := by
  obtain ⟨h1, h2, h3⟩ := c90_tables h
  obtain ⟨a1, a2, a3, a4, _⟩ := fold_tables is ⟨[], [], []⟩
  obtain ⟨b1, b2, b3, b4, _⟩ := fold_tables is' ⟨[], [], []⟩
  refine ⟨by rw [a1, b1, h1], fun n => by rw [a2, b2, h2], fun n => by rw [a3, b3, h3], a4 (by simp [KeysNodup]), b4 (by simp [KeysNodup])⟩

theorem sameMeaning_extend {c c' : Context F} (h : SameMeaning c c') {l l' : List (Str × (Str × List (Expr F)))} (hl : ∀ n, amGet n l = amGet n l')
    (h1 : KeysNodup l) (h2 : KeysNodup l') : SameMeaning (c.extend l) (c'.extend l') := by
  refine ⟨h.1, h.2.1, fun n => ?_⟩
  have := h.2.2 n
  unfold Context.request Context.extend at *
  dsimp only at *
  rw [amGet_extend n _ _ h1, amGet_extend n _ _ h2, hl, this]

/-- `am eval` on two sources of the same meaning. -/
theorem indistinct_evalText {net : Net} {text text' : Str} {src src' : Source F} (h1 : parse text = .ok src) (h2 : parse text' = .ok src')
    (he : src.exprs = src'.exprs) (hr : ∀ n, amGet n src.requests = amGet n src'.requests) (hn : KeysNodup src.requests) (hn' : KeysNodup src'.requests)
    {s s' : St F} (hs : Indistinct s s') : IndistinctRes (evalText net text s) (evalText net text' s') := by
  unfold evalText
  rw [h1, h2]
  dsimp only
  have hx : Indistinct { s with ctx := s.ctx.extend src.requests } { s' with ctx := s'.ctx.extend src'.requests } :=
    ⟨sameMeaning_extend hs.1 hr hn hn', hs.2.1, hs.2.2⟩
  have hb := indistinct_runBlock net src.exprs _ _ hx
  rw [he] at hb
  show IndistinctRes (match runBlock net src.exprs { s with ctx := s.ctx.extend src.requests } with
      | (.ok v, s) => sayLine v.display s
      | (.err e, s) => sayLine e s
      | (.panic, s) => (.panic, s)
      | (.hang, s) => (.hang, s)) (match runBlock net src'.exprs { s' with ctx := s'.ctx.extend src'.requests } with
      | (.ok v, s) => sayLine v.display s
      | (.err e, s) => sayLine e s
      | (.panic, s) => (.panic, s)
      | (.hang, s) => (.hang, s))
  rw [he]
  rcases hy : runBlock net src'.exprs { s with ctx := s.ctx.extend src.requests } with ⟨r, t⟩
  rcases hz : runBlock net src'.exprs { s' with ctx := s'.ctx.extend src'.requests } with ⟨r', t'⟩
  rw [hy, hz] at hb
  obtain ⟨hb1, hb2, hb3, hb4⟩ := hb
  dsimp only at hb1 hb2 hb3 hb4
  subst hb1
  cases r with
  | ok v => exact ⟨rfl, hb2, hb3, congrArg (fun o => o ++ v.display ++ c!"\n") hb4⟩
  | err e => exact ⟨rfl, hb2, hb3, congrArg (fun o => o ++ e ++ c!"\n") hb4⟩
  | panic => exact ⟨rfl, hb2, hb3, hb4⟩
  | hang => exact ⟨rfl, hb2, hb3, hb4⟩

/-- C90: a source text whose definitions stand elsewhere: `am eval` has the same outcome, sends the same messages, prints the same text and leaves the
same variables and records, and every name means the same request. -/
theorem c90_text (net : Net) {text text' : Str} {is is' : List (Item F)} (h1 : Accepted text is) (h2 : Accepted text' is') (h : Rearranged is is')
    {s s' : St F} (hs : Indistinct s s') : (evalText net text s).1 = (evalText net text' s').1 ∧ Indistinct (evalText net text s).2 (evalText net text' s').2 := by
  obtain ⟨a, b, _, c, d⟩ := rearranged_source h
  exact indistinct_evalText (accepted_items h1) (accepted_items h2) a b c d hs

/-- C90: nothing in the rest of a session tells the difference. -/
theorem c90_session (net : Net) (input : List Input) {s s' : St F} (hs : Indistinct s s') :
    (replLoop net input s).1 = (replLoop net input s').1 ∧ Indistinct (replLoop net input s).2 (replLoop net input s').2 := by
  induction input generalizing s s' with
  | nil => exact ⟨rfl, hs⟩
  | cons i rest ih =>
    cases i with
    | bad => exact ih hs
    | line text =>
      unfold replLoop
      by_cases h1 : text = c!"exit"
      · rw [if_pos h1]; exact ⟨rfl, hs⟩
      · rw [if_neg h1]
        by_cases h2 : (trim text).isEmpty = true
        · rw [if_pos h2]; exact ih hs
        · rw [if_neg h2]
          have ht : IndistinctM (F := F) 0 (evalText net text) (evalText net text) := by
            intro u u' hu
            cases hp : (parse text : Res (Source F)) with
            | ok src =>
              obtain ⟨items, _, _, _, _, hk, _⟩ := c12_tables text src hp
              exact indistinct_evalText hp hp rfl (fun _ => rfl) hk hk hu
            | err e =>
              unfold evalText
              rw [hp]
              exact ⟨rfl, hu.1, hu.2.1, congrArg (fun o => o ++ e ++ c!"\n") hu.2.2⟩
            | panic => unfold evalText; rw [hp]; exact ⟨rfl, hu⟩
            | hang => unfold evalText; rw [hp]; exact ⟨rfl, hu⟩
          exact indistinct_bind (m := 0) (n := 0) ht (fun _ _ _ hu => ih hu) s s' hs

/-! ## Runs of tests -/

theorem indistinct_init (record : Bool) {c c' : Context F} (h : SameMeaning c c') (name : Str) (test : List (Expr F)) :
    IndistinctWorker (Worker.init record c name test) (Worker.init record c' name test) :=
  ⟨rfl, rfl, rfl, ⟨h.1, rfl, h.2.2⟩, rfl, rfl⟩

theorem each_replicate {α : Type} {R : α → α → Prop} {a b : α} (h : R a b) : ∀ n, Each R (List.replicate n a) (List.replicate n b)
  | 0 => .nil
  | n + 1 => .cons h (each_replicate h n)

theorem each_map {α β : Type} {R : β → β → Prop} {f g : α → β} (h : ∀ a, R (f a) (g a)) : ∀ l : List α, Each R (l.map f) (l.map g)
  | [] => .nil
  | a :: l => .cons (h a) (each_map h l)

/-- C90: `am test` on two source texts that differ in where the definitions stand: it comes to the same, with the same threads, after sending and
printing the same. Without a test name, the tests have to be started in the same order. -/
theorem c90_start (order order' : List (Str × List (Expr F)) → List (Str × List (Expr F))) (net : Net) (args : TestArgs) {text text' : Str}
    {is is' : List (Item F)} (h1 : Accepted text is) (h2 : Accepted text' is') (h : Rearranged is is')
    (hord : args.name = none → order (is.foldl addItem ⟨[], [], []⟩).tests = order' (is'.foldl addItem ⟨[], [], []⟩).tests) :
    IndistinctStarted (startTest order net args text).1 (startTest order' net args text').1 ∧
    Indistinct (startTest order net args text).2 (startTest order' net args text').2 := by
  obtain ⟨a, b, c, d, e⟩ := rearranged_source h
  have hx := indistinct_runBlock (F := F) net (is.foldl addItem ⟨[], [], []⟩).exprs
    { (⟨Context.new, [], []⟩ : St F) with ctx := Context.new.extend (is.foldl addItem ⟨[], [], []⟩).requests }
    { (⟨Context.new, [], []⟩ : St F) with ctx := Context.new.extend (is'.foldl addItem ⟨[], [], []⟩).requests }
    ⟨sameMeaning_extend (c := Context.new) ⟨rfl, rfl, fun _ => rfl⟩ b d e, rfl, rfl⟩
  unfold startTest setup
  rw [accepted_items h1, accepted_items h2]
  dsimp only at hx ⊢
  rw [← a]
  rcases hy : runBlock net (is.foldl addItem ⟨[], [], []⟩).exprs { ctx := Context.new.extend (is.foldl addItem ⟨[], [], []⟩).requests, sent := [], out := [] } with ⟨r, t⟩
  rcases hz : runBlock net (is.foldl addItem ⟨[], [], []⟩).exprs { ctx := Context.new.extend (is'.foldl addItem ⟨[], [], []⟩).requests, sent := [], out := [] } with ⟨r', t'⟩
  rw [hy, hz] at hx
  obtain ⟨hb1, hb2, hb3, hb4⟩ := hx
  dsimp only at hb1 hb2 hb3 hb4
  subst hb1
  cases r with
  | err m => exact ⟨.ended, hb2, hb3, congrArg (fun o => o ++ m ++ c!"\n") hb4⟩
  | panic => exact ⟨.panicked, hb2, hb3, hb4⟩
  | hang => exact ⟨.endless, hb2, hb3, hb4⟩
  | ok v =>
    dsimp only
    unfold startWorkers
    cases hname : args.name with
    | none =>
      dsimp only
      rw [← hord hname]
      exact ⟨.threads _ _ _ (each_map (fun (p : Str × List (Expr F)) => indistinct_init args.record hb2 p.1 p.2) _), hb2, hb3, hb4⟩
    | some name =>
      dsimp only
      rw [c name]
      cases amGet name (is'.foldl addItem ⟨[], [], []⟩).tests with
      | none => exact ⟨.threads _ _ _ .nil, hb2, hb3, congrArg (fun o => o ++ (c!"Test not found: " ++ name) ++ c!"\n") hb4⟩
      | some test =>
        dsimp only
        cases perThread (limits args.duration args.number).2 args.threads with
        | ok n => exact ⟨.threads _ _ _ (each_replicate (indistinct_init args.record hb2 name test) _), hb2, hb3, hb4⟩
        | err m => exact ⟨.ended, hb2, hb3, hb4⟩
        | panic => exact ⟨.panicked, hb2, hb3, hb4⟩
        | hang => exact ⟨.endless, hb2, hb3, hb4⟩

theorem workerStep_indistinct (cfg : Config) (cont : Bool) (i : Nat) (net : Net) {w w' : Worker F} (h : IndistinctWorker w w') :
    (w.step cfg cont i net = none ∧ w'.step cfg cont i net = none) ∨
    ∃ v v' e, w.step cfg cont i net = some (v, e) ∧ w'.step cfg cont i net = some (v', e) ∧ IndistinctWorker v v' := by
  obtain ⟨p, n, t, c, k, f⟩ := w
  obtain ⟨p', n', t', c', k', f'⟩ := w'
  obtain ⟨rfl, rfl, rfl, hc, rfl, rfl⟩ := h
  dsimp only at hc
  unfold Worker.step
  dsimp only
  cases p with
  | head =>
    dsimp only
    split
    · split <;> exact .inr ⟨_, _, _, rfl, rfl, ⟨rfl, rfl, rfl, hc, rfl, rfl⟩⟩
    · exact .inr ⟨_, _, _, rfl, rfl, ⟨rfl, rfl, rfl, hc, rfl, rfl⟩⟩
  | eval =>
    dsimp only
    have hx := indistinct_runBlock net t ⟨c, [], []⟩ ⟨c', [], []⟩ ⟨hc, rfl, rfl⟩
    rcases hy : runBlock net t ⟨c, [], []⟩ with ⟨r, s⟩
    rcases hz : runBlock net t ⟨c', [], []⟩ with ⟨r', s'⟩
    rw [hy, hz] at hx
    obtain ⟨hb1, hb2, hb3, hb4⟩ := hx
    dsimp only at hb1 hb2 hb3 hb4
    subst hb1
    have hrec := hb2.2.1
    cases r with
    | ok v =>
      dsimp only [Context.takeRecords]
      rw [hrec, hb4]
      exact .inr ⟨_, _, _, rfl, rfl, ⟨rfl, rfl, rfl, ⟨hb2.1, rfl, hb2.2.2⟩, rfl, rfl⟩⟩
    | err e =>
      dsimp only [Context.takeRecords]
      rw [hrec, hb4]
      split
      · exact .inr ⟨_, _, _, rfl, rfl, ⟨rfl, rfl, rfl, hb2, rfl, rfl⟩⟩
      · exact .inr ⟨_, _, _, rfl, rfl, ⟨rfl, rfl, rfl, ⟨hb2.1, rfl, hb2.2.2⟩, rfl, rfl⟩⟩
    | panic =>
      dsimp only
      rw [hb4]
      exact .inr ⟨_, _, _, rfl, rfl, ⟨rfl, rfl, rfl, hb2, rfl, rfl⟩⟩
    | hang =>
      dsimp only
      rw [hb4]
      exact .inr ⟨_, _, _, rfl, rfl, ⟨rfl, rfl, rfl, hb2, rfl, rfl⟩⟩
  | print rs left => cases left <;> exact .inr ⟨_, _, _, rfl, rfl, ⟨rfl, rfl, rfl, hc, rfl, rfl⟩⟩
  | write rs =>
    dsimp only
    split <;> exact .inr ⟨_, _, _, rfl, rfl, ⟨rfl, rfl, rfl, hc, rfl, rfl⟩⟩
  | send rs => exact .inr ⟨_, _, _, rfl, rfl, ⟨rfl, rfl, rfl, hc, rfl, rfl⟩⟩
  | done => exact .inl ⟨rfl, rfl⟩
  | stuck => exact .inl ⟨rfl, rfl⟩

theorem indistinct_done {ws ws' : List (Worker F)} (h : Each IndistinctWorker ws ws') : (ws.all fun w => w.pc == .done) = ws'.all fun w => w.pc == .done := by
  induction h with
  | nil => rfl
  | cons h1 _ ih => simp only [List.all_cons, h1.pc, ih]

theorem runStep_indistinct (cfg : Config) {r r' : Run F} (h : IndistinctRun r r') (s : RunStep) :
    (r.step cfg s = none ∧ r'.step cfg s = none) ∨ ∃ q q', r.step cfg s = some q ∧ r'.step cfg s = some q' ∧ IndistinctRun q q' := by
  obtain ⟨ws, ct, ch, ms, co, st, ou⟩ := r
  obtain ⟨ws', ct', ch', ms', co', st', ou'⟩ := r'
  obtain ⟨hw, rfl, rfl, rfl, rfl, rfl, rfl⟩ := h
  dsimp only at hw
  cases s with
  | work i net =>
    unfold Run.step
    dsimp only
    rcases hw.get i with ⟨h1, h2⟩ | ⟨w, w', h1, h2, h3⟩
    · rw [h1, h2]; exact .inl ⟨rfl, rfl⟩
    · rw [h1, h2]
      dsimp only
      rcases workerStep_indistinct cfg ct i net h3 with ⟨h4, h5⟩ | ⟨v, v', e, h4, h5, h6⟩
      · rw [h4, h5]; exact .inl ⟨rfl, rfl⟩
      · rw [h4, h5]
        exact .inr ⟨_, _, rfl, rfl, ⟨hw.set i h6, rfl, rfl, rfl, rfl, rfl, rfl⟩⟩
  | stop => exact .inr ⟨_, _, rfl, rfl, ⟨hw, rfl, rfl, rfl, rfl, rfl, rfl⟩⟩
  | drop =>
    unfold Run.step
    dsimp only
    split
    · exact .inr ⟨_, _, rfl, rfl, ⟨hw, rfl, rfl, rfl, rfl, rfl, rfl⟩⟩
    · exact .inl ⟨rfl, rfl⟩
  | collect =>
    unfold Run.step
    dsimp only
    split
    · exact .inl ⟨rfl, rfl⟩
    · split
      · split
        · exact .inr ⟨_, _, rfl, rfl, ⟨hw, rfl, rfl, rfl, rfl, rfl, rfl⟩⟩
        · unfold Run.disconnected Run.workersDone
          dsimp only
          rw [indistinct_done hw]
          split
          · exact .inr ⟨_, _, rfl, rfl, ⟨hw, rfl, rfl, rfl, rfl, rfl, rfl⟩⟩
          · exact .inl ⟨rfl, rfl⟩
      · exact .inr ⟨_, _, rfl, rfl, ⟨hw, rfl, rfl, rfl, rfl, rfl, rfl⟩⟩

/-- C90: the runs of the tests are the same, step by step: the same output, the same record files, the same statistics. -/
theorem c90_run (cfg : Config) {r r' : Run F} (h : IndistinctRun r r') (sched : List RunStep) :
    (r.run cfg sched = none ∧ r'.run cfg sched = none) ∨ ∃ q q', r.run cfg sched = some q ∧ r'.run cfg sched = some q' ∧ IndistinctRun q q' := by
  induction sched generalizing r r' with
  | nil => exact .inr ⟨r, r', rfl, rfl, h⟩
  | cons s l ih =>
    unfold Run.run
    rcases runStep_indistinct cfg h s with ⟨h2, h3⟩ | ⟨q, q', h2, h3, h4⟩
    · rw [h2, h3]; exact .inl ⟨rfl, rfl⟩
    · rw [h2, h3]; exact ih h4

/-- C90: threads that are alike make runs that are alike. -/
theorem c90_begin {ws ws' : List (Worker F)} (h : Each IndistinctWorker ws ws') : IndistinctRun (Run.init ws) (Run.init ws') :=
  ⟨h, rfl, rfl, rfl, rfl, rfl, rfl⟩

/-- A request used before and after its definition, and a test between. -/
example : Rearranged (F := F) [.expr (.call c!"f" []), .test c!"t" [], .request c!"f" c!"GET http://localhost/" []]
    [.request c!"f" c!"GET http://localhost/" [], .expr (.call c!"f" []), .test c!"t" []] :=
  .swap [.expr (.call c!"f" [])] [] _ _ _ (.testRequest _ _ _ _ _) (.swap [] [.test c!"t" []] _ _ _ (.exprRequest _ _ _ _) (.refl _))

/-- Two definitions of the same name may not change places. -/
example : ¬ Independent (F := F) (.request c!"f" c!"a" []) (.request c!"f" c!"b" []) := by
  intro h
  cases h with
  | requests _ _ _ _ _ _ h => exact h rfl

/-- C90: the condition is needed: with two definitions of the same name, the later one counts. -/
theorem c90_same_name (k : Clocks) :
    (evalText (F := F) (refusing k) c!"request f `GET http://a/` request f `GET http://b/` f()" ⟨Context.new, [], []⟩).2.sent = [c!"GET http://b/"] ∧
    (evalText (F := F) (refusing k) c!"request f `GET http://b/` request f `GET http://a/` f()" ⟨Context.new, [], []⟩).2.sent = [c!"GET http://a/"] :=
  ⟨rfl, rfl⟩

end Am
