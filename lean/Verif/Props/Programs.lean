import Verif.Props.Accepts
import Verif.Spec.Program
import Verif.Props.Semantics
import Verif.Props.Printing
import Verif.Props.Commands
import Verif.Props.Lexing
import Verif.Props.Running
/-! # C64 to C66: programs as texts, and what runs of tests report -/
set_option linter.unusedSimpArgs false
set_option linter.unusedSectionVars false
namespace Am
open Spec
variable {F : Type} [Rt F]

/-! ## C64 -/

theorem amInsert_twice {V : Type} (k : Str) (v w : V) (m : List (Str × V)) : amInsert k v (amInsert k w m) = amInsert k v m := by
  induction m with
  | nil => simp [amInsert]
  | cons p m ih =>
    obtain ⟨j, x⟩ := p
    by_cases h : j = k
    · simp [amInsert, h]
    · simp [amInsert, h, ih]

theorem amInsert_swap {V : Type} {k j : Str} (v w : V) (m : List (Str × V)) (h : j ≠ k) (hk : k ∈ m.map Prod.fst) :
    amInsert k v (amInsert j w m) = amInsert j w (amInsert k v m) := by
  induction m with
  | nil => simp at hk
  | cons p m ih =>
    obtain ⟨i, x⟩ := p
    by_cases h1 : i = k
    · subst h1
      simp [amInsert, Ne.symm h]
    · by_cases h2 : i = j
      · subst h2
        simp [amInsert, h1]
      · have : k ∈ m.map Prod.fst := by
          simp only [List.map_cons, List.mem_cons] at hk
          rcases hk with hk | hk
          · exact absurd hk.symm h1
          · exact hk
        simp [amInsert, h1, h2, ih this]

theorem amInsert_extend {V : Type} {k : Str} (v : V) (l : List (Str × V)) (hl : k ∉ l.map Prod.fst) : ∀ m : List (Str × V), k ∈ m.map Prod.fst →
    amInsert k v (amExtend m l) = amExtend (amInsert k v m) l := by
  induction l with
  | nil => intro m _; rfl
  | cons p l ih =>
    intro m hk
    obtain ⟨j, w⟩ := p
    simp only [List.map_cons, List.mem_cons, not_or] at hl
    have := ih hl.2 (amInsert j w m) (by
      have := amInsert_keys j w m
      exact (this k).2 (Or.inr hk))
    simp only [amExtend, List.foldl_cons] at this ⊢
    rw [this, amInsert_swap v w m (Ne.symm hl.1) hk]

theorem amExtend_insert {V : Type} (k : Str) (v : V) (l : List (Str × V)) (hl : KeysNodup l) : ∀ m : List (Str × V),
    amExtend m (amInsert k v l) = amInsert k v (amExtend m l) := by
  induction l with
  | nil => intro m; rfl
  | cons p l ih =>
    intro m
    obtain ⟨j, w⟩ := p
    unfold KeysNodup at hl
    simp only [List.map_cons, List.nodup_cons] at hl
    by_cases h : j = k
    · subst h
      simp only [amInsert, if_true, amExtend, List.foldl_cons]
      have := amInsert_extend v l hl.1 (amInsert j w m) ((amInsert_keys j w m j).2 (Or.inl rfl))
      simp only [amExtend] at this
      rw [this, amInsert_twice]
    · simp only [amInsert, if_neg h, amExtend, List.foldl_cons]
      exact ih hl.2 _

theorem extend_items (base : List (Str × (Str × List (Expr F)))) (items : List (Item F)) : ∀ src : Source F, KeysNodup src.requests →
    amExtend base (items.foldl addItem src).requests = addRequests items (amExtend base src.requests) := by
  induction items with
  | nil => intro src _; rfl
  | cons i items ih =>
    intro src hk
    rw [List.foldl_cons]
    cases i with
    | expr e => exact ih _ hk
    | test n b => exact ih _ hk
    | request n m as =>
      rw [ih _ (amInsert_nodup hk)]
      simp only [addItem, addRequests]
      rw [amExtend_insert _ _ _ hk]

theorem program_items {text : Str} {items : List (Item F)} (ht : ProgramText text items) :
    parse text = .ok (items.foldl addItem ⟨[], [], []⟩) := by
  obtain ⟨closed, tokens, h1, h2⟩ := ht
  rw [c02_layout_unique _ _ _ h1] at h2
  exact c59_complete text items h2

theorem accepted_items {text : Str} {items : List (Item F)} (ht : Accepted text items) :
    parse text = .ok (items.foldl addItem ⟨[], [], []⟩) := by
  obtain ⟨closed, tokens, h1, h2⟩ := ht
  rw [c02_layout_unique _ _ _ h1] at h2
  exact (c79_accepts text _).2 ⟨items, h2, rfl⟩

theorem evalText_items (net : Net) (text : Str) (items : List (Item F)) (s s' : St F) (out : Res Unit)
    (hp : parse text = .ok (items.foldl addItem ⟨[], [], []⟩)) (hs : Proper (.map s.ctx.inner)) :
    evalText net text s = (out, s') ↔
      ∃ r s1 t, RunsBlock net .null (exprsOf items) { s with ctx := { s.ctx with requests := addRequests items s.ctx.requests } } r s1 ∧
        Shows r t out ∧ s' = { s1 with out := s1.out ++ t } := by
  have he : (items.foldl addItem (⟨[], [], []⟩ : Source F)).exprs = exprsOf items := by simpa using (fold_tables items ⟨[], [], []⟩).1
  have hx := extend_items s.ctx.requests items ⟨[], [], []⟩ (by simp [KeysNodup])
  have hx : s.ctx.extend (items.foldl addItem (⟨[], [], []⟩ : Source F)).requests = { s.ctx with requests := addRequests items s.ctx.requests } := by
    unfold Context.extend
    rw [hx]
    rfl
  have hr : ∀ r s1, RunsBlock net .null (exprsOf items) { s with ctx := { s.ctx with requests := addRequests items s.ctx.requests } } r s1 ↔
      runBlock net (items.foldl addItem (⟨[], [], []⟩ : Source F)).exprs { s with ctx := s.ctx.extend (items.foldl addItem (⟨[], [], []⟩ : Source F)).requests } =
        (r, s1) := by
    intro r s1
    rw [he, hx]
    exact c63_block net _ _ _ _ hs
  constructor
  · intro h
    rw [evalText_ok s hp] at h
    rcases hb : runBlock net (items.foldl addItem (⟨[], [], []⟩ : Source F)).exprs
      { s with ctx := s.ctx.extend (items.foldl addItem (⟨[], [], []⟩ : Source F)).requests } with ⟨r, s1⟩
    rw [hb] at h
    refine ⟨r, s1, ?_⟩
    cases r with
    | ok v => cases h; exact ⟨_, (hr _ _).2 hb, .value v, by simp⟩
    | err e => cases h; exact ⟨_, (hr _ _).2 hb, .error e, by simp⟩
    | panic => cases h; exact ⟨_, (hr _ _).2 hb, .crash, by simp⟩
    | hang => cases h; exact ⟨_, (hr _ _).2 hb, .endless, by simp⟩
  · rintro ⟨r, s1, t, h3, h4, rfl⟩
    have hb := (hr _ _).1 h3
    rw [evalText_ok s hp, hb]
    cases h4 with
    | value v => simp [sayLine, M.modify]
    | error e => simp [sayLine, M.modify]
    | crash => simp
    | endless => simp

/-- C64: evaluating a text of the published grammar runs its expressions by the rules of the language, with its requests added to the known
ones, and shows the outcome. -/
theorem c64_program (net : Net) (text : Str) (items : List (Item F)) (s s' : St F) (out : Res Unit) (ht : ProgramText text items)
    (hs : Proper (.map s.ctx.inner)) :
    evalText net text s = (out, s') ↔
      ∃ r s1 t, RunsBlock net .null (exprsOf items) { s with ctx := { s.ctx with requests := addRequests items s.ctx.requests } } r s1 ∧
        Shows r t out ∧ s' = { s1 with out := s1.out ++ t } :=
  evalText_items net text items s s' out (program_items ht) hs

/-- C64 for every text: an accepted one runs its expressions, a rejected one shows a message and changes nothing, and on the remaining ones the
parser loops. -/
theorem c64_every (net : Net) (text : Str) (s s' : St F) (out : Res Unit) (hs : Proper (.map s.ctx.inner)) :
    evalText net text s = (out, s') ↔
      (∃ items r s1 t, Accepted text items ∧
        RunsBlock net .null (exprsOf items) { s with ctx := { s.ctx with requests := addRequests items s.ctx.requests } } r s1 ∧
        Shows r t out ∧ s' = { s1 with out := s1.out ++ t }) ∨
      (∃ m, parse (F := F) text = .err m ∧ (∀ items : List (Item F), ¬ Accepted text items) ∧ out = .ok () ∧ s' = { s with out := s.out ++ m ++ c!"\n" }) ∨
      (Endless F (segment text) ∧ out = .hang ∧ s' = s) := by
  obtain ⟨closed, hL⟩ := c02_lex_lossless text
  cases hp : parse (F := F) text with
  | ok src =>
    obtain ⟨items, h1, rfl⟩ := (c79_accepts text src).1 hp
    have ha : Accepted text items := ⟨closed, _, hL, h1⟩
    rw [evalText_items net text items s s' out hp hs]
    constructor
    · rintro ⟨r, s1, t, h⟩
      exact .inl ⟨items, r, s1, t, ha, h⟩
    · rintro (⟨items', r, s1, t, h2, h⟩ | ⟨m, h2, _⟩ | ⟨h2, _⟩)
      · obtain ⟨c', tk, h3, h4⟩ := h2
        rw [c02_layout_unique _ _ _ h3] at h4
        cases c79_unique h1 h4
        exact ⟨r, s1, t, h⟩
      · cases h2
      · exact absurd h2 (c79_disjoint text items h1)
  | err m =>
    have hr := (c79_rejects (F := F) text).1 ⟨m, hp⟩
    have hn : ∀ items : List (Item F), ¬ Accepted text items := by
      rintro items ⟨c', tk, h3, h4⟩
      rw [c02_layout_unique _ _ _ h3] at h4
      exact hr.1 ⟨items, h4⟩
    have e : evalText net text s = (.ok (), { s with out := s.out ++ m ++ c!"\n" }) := by
      unfold evalText
      rw [hp]
      rfl
    rw [e]
    constructor
    · intro h
      cases h
      exact .inr (.inl ⟨m, rfl, hn, rfl, rfl⟩)
    · rintro (⟨items', r, s1, t, h2, h⟩ | ⟨m', h2, _, rfl, rfl⟩ | ⟨h2, _⟩)
      · exact absurd h2 (hn items')
      · cases h2; rfl
      · exact absurd h2 hr.2
  | panic =>
    have := parse_tells (F := F) text
    rw [hp] at this
    exact this.elim
  | hang =>
    have he := (c06_exact_partial (F := F) text).1 hp
    have e : evalText net text s = (.hang, s) := by
      unfold evalText
      rw [hp]
      rfl
    rw [e]
    constructor
    · intro h
      cases h
      exact .inr (.inr ⟨he, rfl, rfl⟩)
    · rintro (⟨items', r, s1, t, h2, h⟩ | ⟨m', h2, _⟩ | ⟨h2, rfl, rfl⟩)
      · rw [accepted_items h2] at hp; cases hp
      · cases h2
      · rfl

/-- Concrete case: the text `let x = 4 x / 2`. -/
example : ProgramText (F := F) c!"let x = 4 x / 2" [.expr (.letE c!"x" (.int 4)), .expr (.binary ⟨.Div, c!"/"⟩ (.ident c!"x") (.int 2))] := by
  obtain ⟨b, h⟩ := c02_lex_lossless c!"let x = 4 x / 2"
  refine ⟨b, _, h, ?_⟩
  exact .next (.expr (.letE c!"x" (.int 4))) _ ⟨.Ident, c!"x"⟩ [⟨.Let, c!"let"⟩, ⟨.Ident, c!"x"⟩, ⟨.Assign, c!"="⟩, ⟨.Integer, c!"4"⟩]
    [⟨.Div, c!"/"⟩, ⟨.Integer, c!"2"⟩, Token.eof] rfl (.expr _ _ (.letE _ ⟨.Ident, c!"x"⟩ _ _ _ rfl rfl rfl (.int _ _ rfl (parseI64_iff.1 rfl))))
    (.next _ [] Token.eof [⟨.Ident, c!"x"⟩, ⟨.Div, c!"/"⟩, ⟨.Integer, c!"2"⟩] [] rfl
      (.expr _ _ (.binary ⟨.Div, c!"/"⟩ _ _ [_] [_] rfl (.ident ⟨.Ident, c!"x"⟩ rfl) (.int _ _ rfl (parseI64_iff.1 rfl)) (by simp [strength, tableLevel])
        (by simp [strength, tableLevel]) rfl rfl))
      (.nil _ rfl))

/-! ## C65 -/

/-- C65 for a named test: what a thread that has ended has printed is, iteration after iteration, the text printed by the test and one report per
record; after a last evaluation that fails, the text it printed and the error message. -/
theorem c65_named_partial (record stat : Bool) (base : Context F) (name : Str) (test : List (Expr F)) (t n : Nat) (l : List RunStep) (r : Run F)
    (h : NamedRun record stat base name test t n l r) (i : Nat) (hi : i < t) (w : Worker F) (hw : r.workers[i]? = some w) (hd : w.pc = .done) :
    ∃ good hist c, Iterations test base.clone good hist c ∧
      ((executions record stat base name test t n l i = good ∧ outOf (some i) r.out = chunks hist) ∨
       ∃ net s, executions record stat base name test t n l i = good ++ [net] ∧
        ((∃ e, runBlock net test ⟨c, [], []⟩ = (.err e, s) ∧ outOf (some i) r.out = chunks hist ++ [s.out, e ++ c!"\n"]) ∨
         (runBlock net test ⟨c, [], []⟩ = (.panic, s) ∧ outOf (some i) r.out = chunks hist ++ [s.out]))) := by
  obtain ⟨_, log, received, _, _, _, g⟩ := named_worker h
  obtain ⟨w', hw', _, _, good, hist, c, hit, ha⟩ := g i hi
  rw [hw] at hw'
  cases hw'
  unfold NamedAt at ha
  rw [hd] at ha
  refine ⟨good, hist, c, hit, ?_⟩
  obtain ⟨_, _, _, ⟨b1, _, b3, _⟩ | ⟨net, s, b1, _, b3⟩⟩ := ha
  · exact Or.inl ⟨b1, b3⟩
  · exact Or.inr ⟨net, s, b1, b3⟩

/-- C65 for a run of all tests: what the thread of a test that has ended has printed is the text printed by the test, the error message if it failed, and one
report per record. -/
theorem c65_all_partial (record stat : Bool) (base : Context F) (tests : List (Str × List (Expr F))) (l : List RunStep) (r : Run F)
    (h : AllRun record stat base tests l r) (i : Nat) (name : Str) (test : List (Expr F)) (hi : tests[i]? = some (name, test)) (w : Worker F)
    (hw : r.workers[i]? = some w) (hd : w.pc = .done) :
    ∃ net s, evalNets ⟨false, 1, stat⟩ i (fresh record base name test) (inputs i true l) = [net] ∧
      ((∃ v, runBlock net test ⟨base.clone, [], []⟩ = (.ok v, s) ∧ outOf (some i) r.out = s.out :: s.ctx.records.map (fun r => r.text ++ c!"\n")) ∨
       (∃ e, runBlock net test ⟨base.clone, [], []⟩ = (.err e, s) ∧
          outOf (some i) r.out = s.out :: (e ++ c!"\n") :: s.ctx.records.map (fun r => r.text ++ c!"\n")) ∨
       (runBlock net test ⟨base.clone, [], []⟩ = (.panic, s) ∧ outOf (some i) r.out = [s.out])) := by
  obtain ⟨_, _, _, g⟩ := all_worker h
  obtain ⟨w', hw', _, _, _, _, ha⟩ := g i name test hi
  rw [hw] at hw'
  cases hw'
  unfold AllAt at ha
  rw [hd] at ha
  obtain ⟨net, s, b1, ⟨b2, _, b3⟩ | ⟨_, ⟨v, b2, b3⟩ | ⟨e, b2, b3⟩⟩⟩ := ha
  · exact ⟨net, s, b1, Or.inr (Or.inr ⟨b2, b3⟩)⟩
  · exact ⟨net, s, b1, Or.inl ⟨v, b2, b3⟩⟩
  · exact ⟨net, s, b1, Or.inr (Or.inl ⟨e, b2, b3⟩)⟩

/-- C65: the records of an iteration are those of the messages it sent, one each, in order. -/
theorem c65_records {test : List (Expr F)} {base : Context F} {nets : List Net} {hist : List (Str × List Record)} {c : Context F}
    (h : Iterations test base nets hist c) (hb : base.records = []) : ∀ (i : Nat) net p, nets[i]? = some net → hist[i]? = some p →
      ∃ (c' : Context F) (v : Value F) (s : St F), c'.requests = base.requests ∧ runBlock net test ⟨c', [], []⟩ = (.ok v, s) ∧ p = (s.out, s.ctx.records) ∧
        RecordsOf net base.requests [] s.sent p.2 := by
  have key : c.records = [] ∧ c.requests = base.requests ∧ (∀ (i : Nat) net p, nets[i]? = some net → hist[i]? = some p →
      ∃ (c' : Context F) (v : Value F) (s : St F), c'.requests = base.requests ∧ runBlock net test ⟨c', [], []⟩ = (.ok v, s) ∧ p = (s.out, s.ctx.records) ∧
        RecordsOf net base.requests [] s.sent p.2) := by
    induction h with
    | nil => exact ⟨hb, rfl, by simp⟩
    | @snoc nets hist c net v s h hr ih =>
      obtain ⟨h1, h2, h3⟩ := ih
      have hreq := c19_requests_fixed net test ⟨c, [], []⟩
      rw [hr] at hreq
      refine ⟨rfl, hreq.trans h2, ?_⟩
      have hl := iterations_length h
      intro i net' p hn hp
      by_cases hlt : i < nets.length
      · rw [List.getElem?_append_left hlt] at hn
        rw [List.getElem?_append_left (by omega)] at hp
        exact h3 i net' p hn hp
      · have hi : i = nets.length := by
          have := (List.getElem?_eq_some_iff.1 hn).1
          simp only [List.length_append, List.length_cons, List.length_nil] at this
          omega
        subst hi
        rw [List.getElem?_append_right (Nat.le_refl _)] at hn
        rw [List.getElem?_append_right (by omega)] at hp
        simp only [Nat.sub_self, List.getElem?_cons_zero, Option.some.injEq] at hn
        rw [hl] at hp
        simp only [Nat.sub_self, List.getElem?_cons_zero, Option.some.injEq] at hp
        subst hn hp
        refine ⟨c, v, s, h2, hr, rfl, ?_⟩
        obtain ⟨msgs, recs, lost, k1, k2, k3, _, k5⟩ := c20_records net test ⟨c, [], []⟩
        rw [hr] at k1 k2 k5
        have : lost = [] := k5 (Or.inl ⟨v, rfl⟩)
        subst this
        simp only [List.append_nil, List.nil_append, h1] at k1 k2 k3
        rw [k1, k2, ← h2]
        exact k3
  exact key.2.2

/-- C65 is false: an exchange made at the top level of the sources, before the tests, is not reported: here the sources declare `ping` and call it, the
message is sent, there are no tests, the program finishes, and nothing is printed. -/
theorem c65_false (k : Clocks) : ∃ (s : St F) (l : List RunStep) (r : Run F),
    setup (refusing k) c!"request ping `GET http://localhost/` ping()" ⟨Context.new, [], []⟩ = (.ok (some []), s) ∧ s.sent = [c!"GET http://localhost/"] ∧
    s.out = [] ∧ AllRun false false s.ctx [] l r ∧ r.finished = true ∧ r.out = [] :=
  ⟨⟨⟨[], [(c!"ping", (c!"GET http://localhost/", []))], [pingRecord k]⟩, [c!"GET http://localhost/"], []⟩, [.drop, .collect], _, rfl, rfl, rfl, rfl, rfl, rfl⟩

/-! ## C66 -/

def innerGrade (_ : Nat) (_ : Out) (a b : St F) : Prop := b.ctx.inner = a.ctx.inner

theorem inner_grade : Grade (F := F) innerGrade where
  refl _ := rfl
  comp h1 h2 := h2.trans h1
  mono _ h := h

theorem inner_call (net : Net) (name : Str) (vs : List (Value F)) : Obeys innerGrade 1 (callAt net 1 name vs) := by
  intro s
  cases hr : s.ctx.request name with
  | none =>
    rw [callAt_none net vs hr]
    exact callNative_closed (P := fun {_} n m _ => Obeys innerGrade n m) inner_grade.closed (fun t s => rfl) name vs s
  | some p =>
    obtain ⟨message, asserts⟩ := p
    rw [callAt_some net vs hr]
    rcases callRequest_cases net 0 name message asserts s with ⟨rq, rs, t, e, map, as, ctx', o, h1, h2, h3, h4⟩ | ⟨o, h1, h2⟩ | ⟨o, h1, h2⟩
    · rw [h4]; rfl
    · rw [h1]; rfl
    · rw [h1]; rfl

theorem block_inner (net : Net) (block : List (Expr F)) (s : St F) (hx : letsList block = []) : (runBlock net block s).2.ctx.inner = s.ctx.inner :=
  evalBlock_closed (P := fun {_} n m _ => Obeys innerGrade n m) (call := callAt net 1) (call' := callAt net 1) inner_grade.closed
    (inner_call net) block .null (fun n hn v => by rw [hx] at hn; cases hn) (fun _ _ => Or.inl (fun _ _ => rfl)) s

/-- C66 for tests without `let` (missing: tests with `let`, see `c66_false`): every iteration starts in the same context, so what it does depends
only on the network. -/
theorem c66_fresh_partial {test : List (Expr F)} {base : Context F} {nets : List Net} {hist : List (Str × List Record)} {c : Context F}
    (h : Iterations test base nets hist c) (hb : base.records = []) (hx : letsList test = []) : c = base ∧
      ∀ p ∈ hist, ∃ net ∈ nets, ∃ v s, runBlock net test ⟨base, [], []⟩ = (.ok v, s) ∧ p = (s.out, s.ctx.records) := by
  induction h with
  | nil => exact ⟨rfl, by simp⟩
  | @snoc nets hist c net v s h hr ih =>
    obtain ⟨rfl, h2⟩ := ih
    constructor
    · have h1 := c19_requests_fixed net test ⟨c, [], []⟩
      have h3 := block_inner net test ⟨c, [], []⟩ hx
      rw [hr] at h1 h3
      dsimp only at h1 h3
      obtain ⟨a, b, d⟩ := c
      cases hb
      simp only [h1, h3]
    · intro p hp
      rcases List.mem_append.1 hp with hp | hp
      · obtain ⟨n, hn, h⟩ := h2 p hp
        exact ⟨n, List.mem_append_left _ hn, h⟩
      · rw [List.mem_singleton] at hp
        exact ⟨net, List.mem_append_right _ List.mem_cons_self, v, s, hr, hp⟩

/-- C66: a variable that the test does not assign has in every iteration the value it had at the start. -/
theorem c66_variable {test : List (Expr F)} {base : Context F} {nets : List Net} {hist : List (Str × List Record)} {c : Context F}
    (h : Iterations test base nets hist c) (x : Str) (hx : x ∉ letsList test) : c.get x = base.get x := by
  induction h with
  | nil => rfl
  | @snoc nets hist c net v s h hr ih =>
    have := c17_frame net test ⟨c, [], []⟩ x hx
    rw [hr] at this
    exact this.trans ih

/-- C66 is false: a test that counts, `let n = n + 1; println("{n}", n)`, prints another number in each iteration. -/
theorem c66_false (net : Net) : ∃ (c : Context F), Iterations
    [.letE c!"n" (.binary ⟨.Add, c!"+"⟩ (.ident c!"n") (.int 1)), .call c!"println" [.str c!"{n}", .ident c!"n"]] ⟨[(c!"n", .int 0)], [], []⟩ [net, net]
    [(c!"1\n", []), (c!"2\n", [])] c := by
  have h1 : runBlock net [.letE c!"n" (.binary ⟨.Add, c!"+"⟩ (.ident c!"n") (.int 1)), .call c!"println" [.str c!"{n}", .ident c!"n"]]
      (⟨⟨[(c!"n", .int 0)], [], []⟩, [], []⟩ : St F) = (.ok .null, ⟨⟨[(c!"n", .int 1)], [], []⟩, [], c!"1\n"⟩) := rfl
  have h2 : runBlock net [.letE c!"n" (.binary ⟨.Add, c!"+"⟩ (.ident c!"n") (.int 1)), .call c!"println" [.str c!"{n}", .ident c!"n"]]
      (⟨⟨[(c!"n", .int 1)], [], []⟩, [], []⟩ : St F) = (.ok .null, ⟨⟨[(c!"n", .int 2)], [], []⟩, [], c!"2\n"⟩) := rfl
  exact ⟨_, .snoc (nets := [net]) (hist := [(c!"1\n", [])]) (.snoc (nets := []) (hist := []) .nil h1) h2⟩

/-- Concrete case: the iterations of a test without `let`. -/
example (net : Net) : letsList ([.call c!"println" [.str c!"7"]] : List (Expr F)) = [] ∧
    Iterations (F := F) [.call c!"println" [.str c!"7"]] ⟨[], [], []⟩ [net] [(c!"7\n", [])] ⟨[], [], []⟩ :=
  ⟨rfl, .snoc (nets := []) (hist := []) (v := .null) (s := ⟨⟨[], [], []⟩, [], c!"7\n"⟩) .nil rfl⟩

end Am
