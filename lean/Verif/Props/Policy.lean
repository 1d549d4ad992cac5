import Verif.Spec.Policy
import Verif.Props.Peer
import Verif.Props.Evaluating
import Verif.Props.Commands
import Verif.Model.Float64
set_option linter.unusedSimpArgs false
set_option linter.unusedSectionVars false
/-! # C100: a script talks only to the hosts written in its requests -/
namespace Am
open Am.Spec

variable {F : Type} [Rt F]

/-- Every message sent on the way from `a` to `b` satisfies `P`, given that the table of requests is `table`. -/
def placeGrade (table : List (Str × (Str × List (Expr F)))) (P : Str → Prop) (_ : Nat) (_ : Out) (a b : St F) : Prop :=
  a.ctx.requests = table → b.ctx.requests = table ∧ ∃ msgs, b.sent = a.sent ++ msgs ∧ ∀ m ∈ msgs, P m

theorem place_grade (table : List (Str × (Str × List (Expr F)))) (P : Str → Prop) : Grade (placeGrade table P) where
  refl s h := ⟨h, [], by simp, by simp⟩
  comp := by
    intro m n o a b c h1 h2 h
    obtain ⟨hb, m1, e1, p1⟩ := h1 h
    obtain ⟨hc, m2, e2, p2⟩ := h2 hb
    refine ⟨hc, m1 ++ m2, by rw [e2, e1, List.append_assoc], fun x hx => ?_⟩
    rcases List.mem_append.1 hx with hx | hx
    · exact p1 x hx
    · exact p2 x hx
  mono _ h := h

theorem place_call (net : Net) (table : List (Str × (Str × List (Expr F)))) (P : Str → Prop)
    (hP : ∀ (ctx : Context F) name template asserts, amGet name table = some (template, asserts) → P (render ctx template)) (name : Str) (vs : List (Value F)) :
    Obeys (placeGrade table P) 1 (callAt net 1 name vs) := by
  intro s ht
  cases hr : s.ctx.request name with
  | none =>
    rw [callAt_none net vs hr]
    exact callNative_closed (P := fun {_} n m _ => Obeys (placeGrade table P) n m) (place_grade table P).closed
      (fun t s h => ⟨h, [], by simp [M.modify], by simp⟩) name vs s ht
  | some p =>
    obtain ⟨message, asserts⟩ := p
    rw [callAt_some net vs hr]
    have hm : P (render s.ctx message) := hP s.ctx name message asserts (by rw [← ht]; exact hr)
    rcases callRequest_cases net 0 name message asserts s with ⟨rq, rs, t, e, map, as, ctx', o, h1, h2, h3, h4⟩ | ⟨o, h1, h2⟩ | ⟨o, h1, h2⟩
    · rw [h4]; exact ⟨ht, [render s.ctx message], rfl, by simpa using hm⟩
    · rw [h1]; exact ⟨ht, [render s.ctx message], rfl, by simpa using hm⟩
    · rw [h1]; exact ⟨ht, [render s.ctx message], rfl, by simpa using hm⟩

theorem place_block (net : Net) (block : List (Expr F)) (s : St F) (P : Str → Prop)
    (hP : ∀ (ctx : Context F) name template asserts, amGet name s.ctx.requests = some (template, asserts) → P (render ctx template)) :
    ∃ msgs, (runBlock net block s).2.sent = s.sent ++ msgs ∧ ∀ m ∈ msgs, P m :=
  (evalBlock_closed (P := fun {_} n m _ => Obeys (placeGrade s.ctx.requests P) n m) (call := callAt net 1) (call' := callAt net 1)
    (place_grade s.ctx.requests P).closed (place_call net s.ctx.requests P hP) block .null
    (fun n _ v s h => ⟨h, [], by simp [writeVar, M.modify], by simp⟩)
    (fun _ _ => Or.inl (fun _ s h => ⟨h, [], by simp [M.lift], by simp⟩)) s rfl).2

/-- C100: whatever a block does, it sends nothing to any other server than those written in the requests it knows. -/
theorem c100_block (net : Net) (places : List Place) (block : List (Expr F)) (s : St F) (h : WrittenOut places s.ctx.requests) :
    ∃ msgs, (runBlock net block s).2.sent = s.sent ++ msgs ∧ ∀ m ∈ msgs, GoesTo places m := by
  refine place_block net block s _ fun ctx name template asserts hn => ?_
  obtain ⟨sc, host, port, h1, h2⟩ := h name template asserts hn
  obtain ⟨path, hp⟩ := c99_fixed ctx template sc host port h1
  exact ⟨_, hp, h2⟩

theorem writtenOut_extend {places : List Place} {c : Context F} {text : Str} {src : Source F} (hp : parse text = .ok src) (h1 : WrittenOut places c.requests)
    (h2 : WrittenOut places src.requests) : WrittenOut places (c.extend src.requests).requests := by
  intro name template asserts hn
  have := extend_request c hp name
  unfold Context.request at this
  rw [this] at hn
  cases hs : amGet name src.requests with
  | none => rw [hs] at hn; exact h1 _ _ _ hn
  | some p => rw [hs] at hn; cases hn; exact h2 _ _ _ hs

/-- C100 for a line of the REPL or the text of `am eval`: if the requests known and the requests of the text have the addresses of these servers written
out, only these servers are sent anything, and it stays so. -/
theorem c100_text (net : Net) (places : List Place) (text : Str) (s : St F) (h : WrittenOut places s.ctx.requests)
    (ht : ∀ src : Source F, parse text = .ok src → WrittenOut places src.requests) :
    WrittenOut places (evalText net text s).2.ctx.requests ∧ ∃ msgs, (evalText net text s).2.sent = s.sent ++ msgs ∧ ∀ m ∈ msgs, GoesTo places m := by
  cases hp : (parse text : Res (Source F)) with
  | err e => unfold evalText; rw [hp]; exact ⟨h, [], by simp [sayLine, M.modify], by simp⟩
  | panic => unfold evalText; rw [hp]; exact ⟨h, [], by simp [M.lift], by simp⟩
  | hang => unfold evalText; rw [hp]; exact ⟨h, [], by simp [M.lift], by simp⟩
  | ok src =>
    have h0 := writtenOut_extend hp h (ht src hp)
    have h1 := c19_requests_fixed net src.exprs { s with ctx := s.ctx.extend src.requests }
    obtain ⟨msgs, h2, h3⟩ := c100_block net places src.exprs { s with ctx := s.ctx.extend src.requests } h0
    have e : evalText net text s =
        match runBlock net src.exprs { s with ctx := s.ctx.extend src.requests } with
        | (.ok v, s) => sayLine v.display s
        | (.err e, s) => sayLine e s
        | (.panic, s) => (.panic, s)
        | (.hang, s) => (.hang, s) := by
      unfold evalText; rw [hp]; rfl
    rw [e]
    generalize runBlock net src.exprs { s with ctx := s.ctx.extend src.requests } = q at h1 h2
    obtain ⟨r, s'⟩ := q
    dsimp only at h1 h2
    rw [← h1] at h0
    cases r <;> exact ⟨h0, msgs, h2, h3⟩

/-- C100 for a whole session of the REPL. -/
theorem c100_repl (net : Net) (places : List Place) : ∀ (input : List Input) (s : St F), WrittenOut places s.ctx.requests →
    (∀ text, .line text ∈ input → ∀ src : Source F, parse text = .ok src → WrittenOut places src.requests) →
    ∃ msgs, (replLoop net input s).2.sent = s.sent ++ msgs ∧ ∀ m ∈ msgs, GoesTo places m
  | [], s, _, _ => ⟨[], by simp [replLoop, M.lift], by simp⟩
  | .bad :: rest, s, h, ht => c100_repl net places rest s h fun t hm => ht t (List.mem_cons_of_mem _ hm)
  | .line text :: rest, s, h, ht => by
    have hr : ∀ s, WrittenOut places s.ctx.requests → ∃ msgs, (replLoop net rest s).2.sent = s.sent ++ msgs ∧ ∀ m ∈ msgs, GoesTo places m :=
      fun s h => c100_repl net places rest s h fun t hm => ht t (List.mem_cons_of_mem _ hm)
    unfold replLoop
    by_cases hx : text = c!"exit"
    · rw [if_pos hx]; exact ⟨[], by simp [M.pure], by simp⟩
    · rw [if_neg hx]
      by_cases hb : (trim text).isEmpty = true
      · rw [if_pos hb]; exact hr s h
      · rw [if_neg hb]
        obtain ⟨h1, msgs, h2, h3⟩ := c100_text net places text s h (ht text List.mem_cons_self)
        change ∃ msgs, (M.bind (evalText net text) (fun _ => replLoop net rest) s).2.sent = s.sent ++ msgs ∧ ∀ m ∈ msgs, GoesTo places m
        unfold M.bind
        generalize evalText net text s = q at h1 h2
        obtain ⟨r, s'⟩ := q
        dsimp only at h1 h2 ⊢
        cases r with
        | ok u =>
          obtain ⟨ms, e, p⟩ := hr s' h1
          refine ⟨msgs ++ ms, by dsimp only; rw [e, h2, List.append_assoc], fun m hm => ?_⟩
          rcases List.mem_append.1 hm with hm | hm
          · exact h3 m hm
          · exact p m hm
        | err e => exact ⟨msgs, h2, h3⟩
        | panic => exact ⟨msgs, h2, h3⟩
        | hang => exact ⟨msgs, h2, h3⟩

theorem step_requests {cfg : Config} {cont : Bool} {i : Nat} {net : Net} {w w' : Worker F} {e : Effect} (h : w.step cfg cont i net = some (w', e)) :
    w'.ctx.requests = w.ctx.requests ∧ w'.test = w.test := by
  have hq := c19_requests_fixed net w.test ⟨w.ctx, [], []⟩
  unfold Worker.step at h
  generalize runBlock net w.test ⟨w.ctx, [], []⟩ = q at h hq
  obtain ⟨r, s⟩ := q
  dsimp only at hq
  cases hpc : w.pc with
  | head => rw [hpc] at h; dsimp only at h; repeat' split at h
            all_goals (cases h; exact ⟨rfl, rfl⟩)
  | eval =>
    rw [hpc] at h
    cases r with
    | ok v => cases h; exact ⟨hq, rfl⟩
    | err e => dsimp only at h; split at h <;> (cases h; exact ⟨hq, rfl⟩)
    | panic => cases h; exact ⟨hq, rfl⟩
    | hang => cases h; exact ⟨hq, rfl⟩
  | print rs left => rw [hpc] at h; cases left <;> (cases h; exact ⟨rfl, rfl⟩)
  | write rs => rw [hpc] at h; dsimp only at h; split at h <;> (cases h; exact ⟨rfl, rfl⟩)
  | send rs => rw [hpc] at h; cases h; exact ⟨rfl, rfl⟩
  | done => rw [hpc] at h; cases h
  | stuck => rw [hpc] at h; cases h

theorem run_requests (cfg : Config) (table : List (Str × (Str × List (Expr F)))) : ∀ (l : List RunStep) (r r' : Run F),
    (∀ w ∈ r.workers, w.ctx.requests = table) → r.run cfg l = some r' → ∀ w ∈ r'.workers, w.ctx.requests = table
  | [], r, r', h, e => by cases e; exact h
  | x :: l, r, r', h, e => by
    unfold Run.run at e
    cases hs : r.step cfg x with
    | none => rw [hs] at e; cases e
    | some r1 =>
      rw [hs] at e
      refine run_requests cfg table l r1 r' ?_ e
      cases x with
      | work i net =>
        unfold Run.step at hs
        dsimp only at hs
        cases hw : r.workers[i]? with
        | none => rw [hw] at hs; cases hs
        | some w =>
          rw [hw] at hs
          dsimp only at hs
          cases hst : w.step cfg r.continuous i net with
          | none => rw [hst] at hs; cases hs
          | some p =>
            obtain ⟨w', ef⟩ := p
            rw [hst] at hs
            cases hs
            intro v hv
            rcases List.mem_or_eq_of_mem_set hv with hv | rfl
            · exact h v hv
            · rw [(step_requests hst).1]
              exact h w (List.mem_of_getElem? hw)
      | stop => cases hs; exact h
      | drop =>
        unfold Run.step at hs
        dsimp only at hs
        split at hs
        · cases hs; exact h
        · cases hs
      | collect =>
        unfold Run.step at hs
        dsimp only at hs
        repeat' split at hs
        all_goals first
          | (cases hs; exact h)
          | cases hs

/-- C100 for `am test`: if the requests of the source have the addresses of these servers written out, then the top-level expressions send nothing to any
other server, and neither does any thread in any evaluation, at any moment of any run. -/
theorem c100_test (order : List (Str × List (Expr F)) → List (Str × List (Expr F))) (net : Net) (args : TestArgs) (text : Str) (places : List Place)
    (ht : ∀ src : Source F, parse text = .ok src → WrittenOut places src.requests) :
    (∀ m ∈ (startTest order net args text).2.sent, GoesTo places m) ∧
    ∀ cfg ws, (startTest order net args text).1 = .threads cfg ws → ∀ l r, (Run.init ws).run cfg l = some r → ∀ w ∈ r.workers, ∀ net',
      ∀ m ∈ (runBlock net' w.test ⟨w.ctx, [], []⟩).2.sent, GoesTo places m := by
  have h0 : WrittenOut places (Context.new : Context F).requests := fun _ _ _ h => (nomatch h)
  have hsetup : (∀ m ∈ (setup (F := F) net text ⟨Context.new, [], []⟩).2.sent, GoesTo places m) ∧
      WrittenOut places (setup (F := F) net text ⟨Context.new, [], []⟩).2.ctx.requests := by
    unfold setup
    cases hp : (parse text : Res (Source F)) with
    | err e => exact ⟨fun m hm => (nomatch hm), h0⟩
    | panic => exact ⟨fun m hm => (nomatch hm), h0⟩
    | hang => exact ⟨fun m hm => (nomatch hm), h0⟩
    | ok src =>
      dsimp only
      have h1 := writtenOut_extend hp h0 (ht src hp)
      have h2 := c19_requests_fixed net src.exprs ⟨(Context.new : Context F).extend src.requests, [], []⟩
      obtain ⟨msgs, h3, h4⟩ := c100_block net places src.exprs ⟨(Context.new : Context F).extend src.requests, [], []⟩ h1
      generalize runBlock net src.exprs ⟨(Context.new : Context F).extend src.requests, [], []⟩ = q at h2 h3
      obtain ⟨r, s⟩ := q
      dsimp only at h2 h3
      rw [List.nil_append] at h3
      subst h3
      rw [← h2] at h1
      cases r <;> exact ⟨h4, h1⟩
  obtain ⟨g1, g2⟩ := hsetup
  unfold startTest
  generalize setup (F := F) net text ⟨Context.new, [], []⟩ = q at g1 g2
  obtain ⟨r, s⟩ := q
  dsimp only at g1 g2
  cases r with
  | err e => exact ⟨g1, fun _ _ h => (nomatch h)⟩
  | panic => exact ⟨g1, fun _ _ h => (nomatch h)⟩
  | hang => exact ⟨g1, fun _ _ h => (nomatch h)⟩
  | ok o =>
    cases o with
    | none => exact ⟨g1, fun _ _ h => (nomatch h)⟩
    | some tests =>
      dsimp only
      have hws : ∀ cfg ws, startWorkers order args.record s.ctx tests args.name args.threads (limits args.duration args.number).2 args.stat = .ok (some (cfg, ws)) →
          ∀ w ∈ ws, w.ctx.requests = s.ctx.requests := by
        intro cfg ws h w hw
        unfold startWorkers at h
        split at h
        · split at h
          · rename_i test _
            cases hpt : perThread (limits args.duration args.number).2 args.threads with
            | ok k =>
              rw [hpt] at h
              cases h
              rw [(List.mem_replicate.1 hw).2]; rfl
            | err e => rw [hpt] at h; cases h
            | panic => rw [hpt] at h; cases h
            | hang => rw [hpt] at h; cases h
          · cases h
        · cases h
          obtain ⟨p, _, rfl⟩ := List.mem_map.1 hw
          rfl
      have fin : ∀ cfg (ws : List (Worker F)), (∀ w ∈ ws, w.ctx.requests = s.ctx.requests) → ∀ l r, (Run.init ws).run cfg l = some r → ∀ w ∈ r.workers, ∀ net',
          ∀ m ∈ (runBlock net' w.test ⟨w.ctx, [], []⟩).2.sent, GoesTo places m := by
        intro cfg ws hw l r hr w hwm net' m hm
        have e := run_requests cfg s.ctx.requests l _ r hw hr w hwm
        obtain ⟨msgs, e1, e2⟩ := c100_block net' places w.test ⟨w.ctx, [], []⟩ (by rw [show (⟨w.ctx, [], []⟩ : St F).ctx.requests = s.ctx.requests from e]; exact g2)
        rw [e1] at hm
        exact e2 m (by simpa using hm)
      cases hst : startWorkers order args.record s.ctx tests args.name args.threads (limits args.duration args.number).2 args.stat with
      | err e => exact ⟨g1, fun _ _ h => (nomatch h)⟩
      | panic => exact ⟨g1, fun _ _ h => (nomatch h)⟩
      | hang => exact ⟨g1, fun _ _ h => (nomatch h)⟩
      | ok o =>
        cases o with
        | none => exact ⟨g1, fun cfg ws h => by cases h; exact fin _ [] (by simp)⟩
        | some p =>
          obtain ⟨cfg, ws⟩ := p
          exact ⟨g1, fun cfg' ws' h => by cases h; exact fin cfg ws (hws cfg ws hst)⟩

/-! ## Examples -/

/-- Two requests to one server; the second takes its path and its body from variables. -/
def politeText : Str := c!"request list `GET https://api.test/items`\nrequest item `POST https://api.test/items/{id}\n\n{body}`\nlet id = list().body; item()"

set_option maxRecDepth 20000 in
/-- Concrete case for C100. -/
example : ∀ src : Source F, parse politeText = .ok src → WrittenOut [(.Https, c!"api.test", 443)] src.requests := by
  have hp : ∃ es, (parse politeText : Res (Source F)) =
      .ok ⟨es, [(c!"list", (c!"GET https://api.test/items", [])), (c!"item", (c!"POST https://api.test/items/{id}\n\n{body}", []))], []⟩ := ⟨_, rfl⟩
  obtain ⟨es, hp⟩ := hp
  intro src hs
  rw [hp] at hs
  cases hs
  intro name template asserts h
  have fixed : ∀ w rest, w ≠ [] → (∀ c ∈ w, isWs c = false ∧ c ≠ '{') → FixedTarget (w ++ c!" https://api.test/" ++ rest) .Https c!"api.test" 443 := fun w rest h1 h2 =>
    ⟨⟨[], w, c!" ", [], rest, by simp [Scheme.text], by simp, h1, h2, by decide, by decide, .absent⟩, by unfold PlainHost; decide, by decide⟩
  unfold amGet at h
  split at h
  · cases h
    exact ⟨_, _, _, fixed c!"GET" c!"items" (by decide) (by decide), by simp⟩
  · unfold amGet at h
    split at h
    · cases h
      exact ⟨_, _, _, fixed c!"POST" c!"items/{id}\n\n{body}" (by decide) (by decide), by simp⟩
    · cases h

/-- A network in which every server answers with the address of another one. -/
def luringNet : Net := ⟨fun _ _ => .answered ⟨utf8 c!"HTTP/1.1 200 OK\r\n\r\nevil.test", none⟩ ⟨0, 0, 0, 0, 0, 0, 0, 0, 0, 0⟩, fun _ => none⟩

set_option maxRecDepth 20000 in
/-- C100: written-out addresses are needed: with an address from a response, the server decides where the next request goes. -/
theorem c100_open : (@evalText F64 (rt64 ⟨true, fun c => [c], id⟩) luringNet
      c!"request list `GET https://api.test/`\nrequest next `GET https://{host}/`\nlet host = list().body; next()" ⟨Context.new, [], []⟩).2.sent =
      [c!"GET https://api.test/", c!"GET https://evil.test/"] ∧
    ¬ GoesTo [(.Https, c!"api.test", 443)] c!"GET https://evil.test/" := by
  refine ⟨by decide +kernel, ?_⟩
  rintro ⟨u, h1, h2⟩
  rw [← c99_addressed (fun _ => none)] at h1
  subst h1
  revert h2
  decide +kernel

end Am
