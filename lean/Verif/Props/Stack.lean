import Verif.Proofs.StackExact
import Verif.Proofs.StackEval
import Verif.Props.Printing
/-! # C75: nesting and the stack -/
set_option linter.unusedSimpArgs false
set_option linter.unusedSectionVars false
namespace Am
open Spec
variable {F : Type} [Rt F]

/-- C75 (partial). However little room there is: reading a text either crashes or gives what it gives with unlimited room. The full claim is that
some room is enough for every text; it is false (`c75_false_source`). -/
theorem c75_same_partial (d : Nat) (text : Str) : parseIn (F := F) d text = .panic ∨ parseIn (F := F) d text = parse text := parseIn_same d text

/-- C75 (partial). Eleven nested calls, and eleven more for every opening bracket, prefix operator and `let`, are enough for every text. -/
theorem c75_room_partial (d : Nat) (text : Str) (h : 11 * (openings (segment text) + 1) ≤ d) : parseIn (F := F) d text = parse text :=
  parseIn_room d text (by omega)

/-- C75 (partial). A text of expressions is read without a crash exactly when its expressions are nested no deeper than there is room. -/
theorem c75_exact_partial (text : Str) (es : List (Expr F)) (h : parse text = .ok ⟨es, [], []⟩) (d : Nat) :
    parseIn d text = if nestingAll es ≤ d then .ok ⟨es, [], []⟩ else .panic := parseIn_exact h d

/-- C75 (partial). However little room there is: running a block either crashes or does what it does with unlimited room. -/
theorem c75_run_partial (net : Net) (d : Nat) (es : List (Expr F)) (s : St F) :
    (runBlockIn net d es s).1 = .panic ∨ runBlockIn net d es s = runBlock net es s := runBlockIn_under net d es s

/-- C75 (partial). A block runs as with unlimited room if there is room for its height and beyond that for the asserts of every request and for
the body of every response. -/
theorem c75_run_room_partial (net : Net) (d r : Nat) (es : List (Expr F)) (s : St F)
    (hasserts : ∀ name message asserts, (name, (message, asserts)) ∈ s.ctx.requests → heightAll asserts ≤ r)
    (hbodies : ∀ sent text request response time error, send net sent text = .ok (request, response, time, error) →
      11 * (openings (segment response.body) + 1) ≤ r)
    (h : heightAll es + r ≤ d) : runBlockIn net d es s = runBlock net es s :=
  runBlockIn_same net ⟨hasserts, fun a b c d e f h => by have := hbodies a b c d e f h; omega⟩ h

/-! ## Witnesses -/

/-- `[]`, `[[]]`, `[[[]]]`, … -/
def boxes : Nat → Expr F
  | 0 => .arr []
  | n + 1 => .arr [boxes n]

theorem boxes_text (n : Nat) : (boxes (F := F) n).display = List.replicate (n + 1) '[' ++ List.replicate (n + 1) ']' := by
  induction n with
  | zero => rfl
  | succ n ih =>
    have : (boxes (F := F) (n + 1)).display = '[' :: ((boxes (F := F) n).display ++ [']']) := by
      simp [boxes, Expr.display, Expr.displayList, joinStr]
    rw [this, ih, List.replicate_succ (n := n + 1), List.replicate_succ' (n := n + 1) (a := ']')]
    simp

theorem boxes_nesting (n : Nat) : nesting (boxes (F := F) n) = n + 1 := by
  induction n with
  | zero => rfl
  | succ n ih => simp only [boxes, nesting, nestingAll, ih]; omega

theorem boxes_ok (n : Nat) : (∃ ts, Reads (boxes (F := F) n) ts ∧ ∀ t ∈ ts, TokenOk t) ∧ Grouped EndsInLet (boxes (F := F) n) ∧
    Printable (boxes (F := F) n) := by
  induction n with
  | zero =>
    refine ⟨⟨_, .arr ⟨.Ls, c!"["⟩ ⟨.Rs, c!"]"⟩ [] [] rfl rfl .nil, ?_⟩, .arr _ .nil, trivial⟩
    intro t ht
    simp at ht
    rcases ht with rfl | rfl <;> rfl
  | succ n ih =>
    obtain ⟨⟨ts, h1, h2⟩, h3, h4⟩ := ih
    refine ⟨⟨_, .arr ⟨.Ls, c!"["⟩ ⟨.Rs, c!"]"⟩ [boxes n] ts rfl rfl (.last _ _ h1), ?_⟩, .arr _ (.cons _ _ h3 .nil), ⟨h4, trivial⟩⟩
    intro t ht
    simp at ht
    rcases ht with rfl | ht | rfl
    · rfl
    · exact h2 t ht
    · rfl

theorem boxes_parse (n : Nat) : parse (F := F) (List.replicate (n + 1) '[' ++ List.replicate (n + 1) ']') = .ok ⟨[boxes n], [], []⟩ := by
  obtain ⟨⟨ts, h1, h2⟩, h3, h4⟩ := boxes_ok (F := F) n
  rw [← boxes_text (F := F)]
  exact c10_reads_partial _ ts h1 h2 h3 h4

/-- C75 is false: whatever room there is, some text that can be read crashes the reader. -/
theorem c75_false_source (d : Nat) : ∃ (text : Str) (src : Source F), parse text = .ok src ∧ parseIn (F := F) d text = .panic := by
  refine ⟨_, _, boxes_parse d, ?_⟩
  rw [c75_exact_partial _ _ (boxes_parse d) d, if_neg]
  simp only [nestingAll, boxes_nesting]
  omega

/-- C75 is false: whatever room there is, some answer of a server crashes the client. -/
theorem c75_false_body (d : Nat) : ∃ body : Str, ∀ r : Response, r.body = body →
    (∃ map, r.toMap (F := F) = .ok map) ∧ r.toMapIn (F := F) d = .panic := by
  refine ⟨List.replicate (d + 1) '[' ++ List.replicate (d + 1) ']', fun r hr => ⟨⟨amInsert c!"json" (boxes d).eval r.baseMap, ?_⟩, ?_⟩⟩
  · simp only [Response.toMap, hr, boxes_parse]
  · simp only [Response.toMapIn, hr]
    rw [c75_exact_partial _ _ (boxes_parse d) d, if_neg]
    simp only [nestingAll, boxes_nesting]
    omega

/-- `1`, `1 * 1`, `1 * 1 * 1`, … -/
def ones : Nat → Expr F
  | 0 => .int 1
  | n + 1 => .binary ⟨.Mul, c!"*"⟩ (ones n) (.int 1)

theorem ones_ok (n : Nat) : (∃ ts, Reads (ones (F := F) n) ts ∧ ∀ t ∈ ts, TokenOk t) ∧ Grouped EndsInLet (ones (F := F) n) ∧
    Printable (ones (F := F) n) ∧ isLet (ones (F := F) n) = false ∧ 10 ≤ strength (ones (F := F) n) := by
  have h1 : Reads (F := F) (.int 1) [⟨.Integer, c!"1"⟩] := .int _ 1 rfl (parseI64_iff.1 (by decide +kernel))
  have h2 : TokenOk ⟨.Integer, c!"1"⟩ := ⟨by simp, by decide +kernel⟩
  induction n with
  | zero =>
    refine ⟨⟨_, h1, ?_⟩, .int 1, trivial, rfl, by simp [ones, strength]⟩
    intro t ht
    simp at ht
    subst ht
    exact h2
  | succ n ih =>
    obtain ⟨⟨ts, h3, h4⟩, h5, h6, h7, h8⟩ := ih
    refine ⟨⟨_, .binary ⟨.Mul, c!"*"⟩ (ones n) (.int 1) ts _ rfl h3 h1, ?_⟩, .binary _ _ _ rfl h5 (.int 1) (by simp [strength, tableLevel]) (Or.inl h8),
      ⟨h7, rfl, h6, trivial⟩, rfl, by simp [ones, strength, tableLevel]⟩
    intro t ht
    simp at ht
    rcases ht with ht | rfl | rfl
    · exact h4 t ht
    · rfl
    · exact h2

theorem ones_parse (n : Nat) : parse (F := F) (ones (F := F) n).display = .ok ⟨[ones n], [], []⟩ := by
  obtain ⟨⟨ts, h1, h2⟩, h3, h4, _⟩ := ones_ok (F := F) n
  exact c10_reads_partial _ ts h1 h2 h3 h4

theorem ones_nesting (n : Nat) : nesting (ones (F := F) n) ≤ 2 := by
  induction n with
  | zero => simp [ones, nesting]
  | succ n ih => simp only [ones, nesting]; omega

theorem ones_value (call : Call F) (n : Nat) (s : St F) : evalExpr call (ones n) s = (.ok (.int 1), s) := by
  induction n with
  | zero => rfl
  | succ n ih =>
    simp only [ones, evalExpr, binaryOp]
    rw [M.bind_ok ih, M.bind_ok (m := M.pure _) rfl]
    rfl

theorem ones_crash (call : Nat → Call F) (d : Nat) : ∀ n, d ≤ n → ∀ s : St F, (evalExprIn call (ones n) d s).1 = .panic := by
  induction d with
  | zero => intro n _ s; cases n <;> rfl
  | succ d ih =>
    intro n hn s
    cases n with
    | zero => omega
    | succ n =>
      have h1 : (evalExprIn call (ones n) d s).1 = .panic := ih n (by omega) s
      simp only [ones, evalExprIn, binaryOp, Nat.add_one_ne_zero, if_false, Nat.add_sub_cancel]
      rw [M.bind_panic (s' := (evalExprIn call (ones n) d s).2) (Prod.ext h1 rfl)]

/-- C75 is false: whatever room there is, some text that is read with room for two nested calls, and has the value 1, crashes when it is
run. -/
theorem c75_false_run (d : Nat) : ∃ (text : Str) (es : List (Expr F)), parseIn 2 text = .ok ⟨es, [], []⟩ ∧
    ∀ (net : Net) (s : St F), runBlock net es s = (.ok (.int 1), s) ∧ (runBlockIn net d es s).1 = .panic := by
  refine ⟨_, _, by rw [c75_exact_partial _ _ (ones_parse d) 2, if_pos]; simp only [nestingAll]; have := ones_nesting (F := F) d; omega, ?_⟩
  intro net s
  constructor
  · simp only [runBlock, evalBlock]
    rw [M.bind_ok (ones_value _ d s)]
    rfl
  · simp only [runBlockIn, evalBlockIn]
    have h1 := ones_crash (callAtIn net 1) d d (Nat.le_refl _) s
    rw [M.bind_panic (s' := (evalExprIn (callAtIn net 1) (ones d) d s).2) (Prod.ext h1 rfl)]

/-! ## Examples -/

/-- `[[1], (2 + 3) * -4]` is nested four deep; it contains four openings. -/
example : parse (F := F) c!"[[1], (2 + 3) * -4]" = .ok ⟨[.arr [.arr [.int 1],
    .binary ⟨.Mul, c!"*"⟩ (.paren (.binary ⟨.Add, c!"+"⟩ (.int 2) (.int 3))) (.unary ⟨.Sub, c!"-"⟩ (.int 4))]], [], []⟩ := rfl
example : nesting (F := F) (.arr [.arr [.int 1],
    .binary ⟨.Mul, c!"*"⟩ (.paren (.binary ⟨.Add, c!"+"⟩ (.int 2) (.int 3))) (.unary ⟨.Sub, c!"-"⟩ (.int 4))]) = 4 := by
  simp [nesting, nestingAll]
example : openings (segment c!"[[1], (2 + 3) * -4]") = 4 := by decide +kernel
example : parseIn (F := F) 3 c!"[[1], (2 + 3) * -4]" = .panic := rfl
example : ∃ src, parseIn (F := F) 4 c!"[[1], (2 + 3) * -4]" = .ok src := ⟨_, rfl⟩

/-- Eleven calls per opening are needed: all ten levels of operators, inside a bracket and outside. -/
example : parseIn (F := F) 21 c!"a||a&&a|a^a&a==a<a<<a+a*(a||a&&a|a^a&a==a<a<<a+a*a)" = .panic := rfl
example : parseIn (F := F) 22 c!"a||a&&a|a^a&a==a<a<<a+a*(a||a&&a|a^a&a==a<a<<a+a*a)" =
    parse c!"a||a&&a|a^a&a==a<a<<a+a*(a||a&&a|a^a&a==a<a<<a+a*a)" := c75_room_partial _ _ (by decide +kernel)

/-- A test `ping().status == 200` whose request has the assert `status == 200`, run without a network: 3 calls for the test, 11 for the rest. -/
example (k : Clocks) (s : St F) (h : s.ctx.requests = [(c!"ping", (c!"GET http://a/", [.binary ⟨.Eq, c!"=="⟩ (.ident c!"status") (.int 200)]))]) :
    let net : Net := ⟨fun _ _ => .refused .tcpConnectFailed k, fun _ => none⟩
    let es : List (Expr F) := [.binary ⟨.Eq, c!"=="⟩ (.field (.call c!"ping" []) c!"status") (.int 200)]
    runBlockIn net 14 es s = runBlock net es s := by
  intro net es
  refine c75_run_room_partial net 14 11 es s ?_ ?_ ?_
  · intro name message asserts hm
    rw [h] at hm
    simp at hm
    obtain ⟨_, _, rfl⟩ := hm
    simp [heightAll, height]
  · intro sent text request response time error hs
    cases hs
    decide +kernel
  · simp [es, heightAll, height]

end Am
