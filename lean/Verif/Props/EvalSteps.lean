import Verif.Proofs.EvalSteps
import Verif.Spec.EvalSteps
import Verif.Props.Growth
/-!
# C105: how long a script runs

Every expression of a script is evaluated at most once in a run, and every assert at most once in a call of its request.
-/
set_option linter.unusedSimpArgs false
set_option linter.unusedSectionVars false
namespace Am
open Spec
variable {F : Type} [Rt F]

/-- The counting evaluator is the evaluator. -/
theorem c105_same (net : Net) (es : List (Expr F)) (s : St F) : (trunBlock net es s).1 = runBlock net es s := by
  have hb : ∃ a, ∀ name message asserts, amGet name s.ctx.requests = some (message, asserts) → nodesAll 0 asserts ≤ a := by
    generalize s.ctx.requests = rq
    induction rq with
    | nil => exact ⟨0, nofun⟩
    | cons p rq ih =>
      obtain ⟨a, ha⟩ := ih
      obtain ⟨k, message, asserts⟩ := p
      refine ⟨nodesAll 0 asserts + a, ?_⟩
      intro name m as h
      rcases List.mem_cons.1 (amGet_mem h) with e | e
      · cases e; omega
      · by_cases hk : k = name
        · subst hk
          simp [amGet] at h
          obtain ⟨rfl, rfl⟩ := h; omega
        · rw [amGet, if_neg (by simpa using hk)] at h
          have := ha name m as h; omega
  obtain ⟨a, ha⟩ := hb
  exact (evalBlock_tally (callAt_tally net ha) es .null s rfl).1

/-- C105: a run takes at most one step for every node and list element of the script, and for every call as many as the asserts of the request
called have, wherever it stops. -/
theorem c105_steps (net : Net) {a : Nat} (es : List (Expr F)) {s : St F}
    (hrq : ∀ name message asserts, s.ctx.request name = some (message, asserts) → nodesAll 0 asserts ≤ a) : (trunBlock net es s).2 ≤ nodesAll a es :=
  (evalBlock_tally (callAt_tally net hrq) es .null s rfl).2.1

/-! ## Runs without branches -/

/-- A run of `x` without requests that ends well takes exactly `k` steps. -/
def Exactly {α : Type} (k : Nat) (x : MC F α) : Prop := ∀ s v s', s.ctx.requests = [] → (x s).1 = (.ok v, s') → (x s).2 = k ∧ s'.ctx.requests = []

theorem Exactly.pure {α : Type} (a : α) : Exactly 0 (Pure.pure a : MC F α) := by
  intro s v s' h e
  cases e
  exact ⟨rfl, h⟩

theorem Exactly.bind {α β : Type} {k n : Nat} {x : MC F α} {f : α → MC F β} (hx : Exactly k x) (hf : ∀ a, Exactly n (f a)) : Exactly (k + n) (x >>= f) := by
  intro s v s' hs
  show (MC.bind x f s).1 = _ → (MC.bind x f s).2 = _ ∧ _
  unfold MC.bind
  have h1 := hx s
  generalize hz : x s = z at *
  obtain ⟨⟨res, s1⟩, m⟩ := z
  cases res with
  | ok a =>
    intro e
    obtain ⟨g1, g2⟩ := h1 a s1 hs rfl
    dsimp only at g1 e ⊢
    obtain ⟨k1, k2⟩ := hf a s1 v s' g2 e
    exact ⟨by rw [g1, k1], k2⟩
  | err _ => intro e; cases e
  | panic => intro e; cases e
  | hang => intro e; cases e

theorem Exactly.tick {α : Type} {k : Nat} {x : MC F α} (hx : Exactly k x) : Exactly (1 + k) (do MC.tick; x) := by
  intro s v s' hs e
  obtain ⟨h1, h2⟩ := hx s v s' hs e
  exact ⟨congrArg (1 + ·) h1, h2⟩

theorem Exactly.lift {α : Type} (r : Res α) : Exactly 0 (MC.free (M.lift r : M F α)) := by
  intro s v s' hs e
  cases e
  exact ⟨rfl, hs⟩

theorem Exactly.free {α : Type} {m : M F α} (h : ∀ s, (m s).2.ctx.requests = s.ctx.requests) : Exactly 0 (MC.free m) := by
  intro s v s' hs e
  have h1 := h s
  change m s = _ at e
  rw [e] at h1
  exact ⟨rfl, h1.trans hs⟩

section
variable {callC : CallC F} (hc : ∀ name vs, Exactly 0 (callC name vs))
include hc

mutual
theorem evalExpr_exactly : ∀ e : Expr F, Straight e → Exactly (nodes 0 e) (tevalExpr callC e)
  | .int _, _ => by simp only [nodes, tevalExpr]; exact .tick (.pure _)
  | .float _, _ => by simp only [nodes, tevalExpr]; exact .tick (.pure _)
  | .bool _, _ => by simp only [nodes, tevalExpr]; exact .tick (.pure _)
  | .str _, _ => by simp only [nodes, tevalExpr]; exact .tick (.pure _)
  | .ident n, _ => by
    simp only [nodes, tevalExpr]
    refine .tick (.free ?_)
    intro s
    cases s.ctx.get n <;> rfl
  | .arr items, .arr h => by
    have h1 := evalList_exactly items h
    simp only [nodes, tevalExpr]
    exact .tick (.bind h1 fun _ => .pure _)
  | .map pairs, .map h => by
    have h1 := evalPairs_exactly pairs [] h
    simp only [nodes, tevalExpr]
    exact .tick (.bind h1 fun _ => .pure _)
  | .index l i, .index h h' => by
    have h1 := evalExpr_exactly l h
    have h2 := evalExpr_exactly i h'
    simp only [nodes, tevalExpr]
    rw [Nat.add_assoc]
    exact .tick (.bind h1 fun _ => .bind h2 fun _ => .lift _)
  | .field l _, .field _ h => by
    have h1 := evalExpr_exactly l h
    simp only [nodes, tevalExpr]
    exact .tick (.bind h1 fun _ => .lift _)
  | .letE _ e, .letE _ h => by
    have h1 := evalExpr_exactly e h
    simp only [nodes, tevalExpr]
    exact .tick (.bind h1 fun _ => .bind (.free fun _ => rfl) fun _ => .pure _)
  | .unary _ r, .unary _ h => by
    have h1 := evalExpr_exactly r h
    simp only [nodes, tevalExpr]
    exact .tick (.bind h1 fun _ => .lift _)
  | .binary t l r, .binary n1 n2 h h' => by
    have h1 := evalExpr_exactly l h
    have h2 := evalExpr_exactly r h'
    simp only [nodes, tevalExpr]
    rw [Nat.add_assoc]
    refine .tick ?_
    cases binaryOp (F := F) t.kind with
    | some op => exact .bind h1 fun _ => .bind h2 fun _ => .lift _
    | none =>
      dsimp only
      rw [if_neg n1, if_neg n2]
      intro s v s' hs e
      cases e
  | .paren e, .paren h => by
    have h1 := evalExpr_exactly e h
    simp only [nodes, tevalExpr]
    exact .tick h1
  | .call f args, .call _ h => by
    have h1 := evalList_exactly args h
    simp only [nodes, tevalExpr, Nat.add_zero]
    exact .tick (.bind h1 fun vs => hc f vs)
theorem evalList_exactly : ∀ l : List (Expr F), StraightAll l → Exactly (nodesAll 0 l) (tevalList callC l)
  | [], _ => by simp only [nodesAll, tevalList]; exact .pure _
  | e :: l, .cons h h' => by
    have h1 := evalExpr_exactly e h
    have h2 := evalList_exactly l h'
    simp only [nodesAll, tevalList]
    rw [Nat.add_assoc]
    exact .tick (.bind h1 fun _ => .bind h2 fun _ => .pure _)
theorem evalPairs_exactly : ∀ (l : List (Expr F × Expr F)) (acc : List (Str × Value F)), StraightPairs l → Exactly (nodesPairs 0 l) (tevalPairs callC acc l)
  | [], _, _ => by simp only [nodesPairs, tevalPairs]; exact .pure _
  | (k, v) :: l, acc, .cons h h' h'' => by
    have h1 := evalExpr_exactly k h
    have h2 := evalExpr_exactly v h'
    have h3 := fun acc => evalPairs_exactly l acc h''
    simp only [nodesPairs, tevalPairs]
    rw [Nat.add_assoc, Nat.add_assoc]
    exact .tick (.bind h1 fun _ => .bind h2 fun _ => h3 _)
end

theorem evalBlock_exactly : ∀ (l : List (Expr F)) (acc : Value F), StraightAll l → Exactly (nodesAll 0 l) (tevalBlock callC acc l)
  | [], _, _ => by simp only [nodesAll, tevalBlock]; exact .pure _
  | e :: l, acc, .cons h h' => by
    have h1 := evalExpr_exactly hc e h
    have h2 := fun acc => evalBlock_exactly l acc h'
    simp only [nodesAll, tevalBlock]
    rw [Nat.add_assoc]
    exact .tick (.bind h1 fun _ => h2 _)

end

theorem callAt_exactly (net : Net) (name : Str) (vs : List (Value F)) : Exactly 0 (tcallAt net 1 name vs) := by
  intro s v s' hs
  have : s.ctx.request name = none := by unfold Context.request; rw [hs]; rfl
  unfold tcallAt
  rw [this]
  intro e
  have h1 := callNative_requests name vs s
  dsimp only at e
  rw [e] at h1
  exact ⟨rfl, h1.trans hs⟩

/-- C105: without branches and requests, a run that ends well takes exactly one step for every node and list element. -/
theorem c105_exact (net : Net) {es : List (Expr F)} (h : StraightAll es) {s s' : St F} {v : Value F} (hs : s.ctx.requests = [])
    (hr : runBlock net es s = (.ok v, s')) : (trunBlock net es s).2 = nodesAll 0 es :=
  (evalBlock_exactly (callAt_exactly net) es .null h s v s' hs ((c105_same net es s).trans hr)).1

/-! ## Steps for a text -/

/-- C105: a script of `n` characters without requests runs for at most `2 * (n + 1)` steps. -/
theorem c105_text_plain (net : Net) {text : Str} {src : Source F} (h : parse text = .ok src) (hq : src.requests = []) (inner : List (Str × Value F)) :
    (trunBlock net src.exprs ⟨⟨inner, [], []⟩, [], []⟩).2 ≤ 2 * (text.length + 1) :=
  Nat.le_trans (c105_steps net (a := 0) src.exprs (s := ⟨⟨inner, [], []⟩, [], []⟩) nofun) (parse_small h).1

/-- C105: with requests, at most about `4 * n ^ 2` steps: as many asserts as there are for every call. -/
theorem c105_text (net : Net) {text : Str} {src : Source F} (h : parse text = .ok src) :
    (trunBlock net src.exprs ⟨Context.new.extend src.requests, [], []⟩).2 ≤ 2 * (text.length + 1) * (2 * (text.length + 1) + 1) := by
  obtain ⟨h1, _, h3⟩ := parse_small h
  have := c105_steps net (a := 2 * (text.length + 1)) src.exprs (s := ⟨Context.new.extend src.requests, [], []⟩) fun name message asserts hr =>
    (h3 _ (known_request hr)).1
  refine Nat.le_trans this (Nat.le_trans (nodesAll_calls _ _) ?_)
  rw [Nat.mul_comm, Nat.add_comm 1]
  exact Nat.mul_le_mul_right _ h1

/-- Concrete case for `c105_exact`: `let a = [1, 2]; length(a)` takes 11 steps. -/
example (net : Net) : let es : List (Expr F) := [.letE c!"a" (.arr [.int 1, .int 2]), .call c!"length" [.ident c!"a"]]
    StraightAll es ∧ (runBlock net es ⟨Context.new, [], []⟩).1 = .ok (.int 2) ∧ nodesAll 0 es = 11 ∧ (trunBlock net es ⟨Context.new, [], []⟩).2 = 11 :=
  ⟨.cons (.letE _ (.arr (.cons (.int _) (.cons (.int _) .nil)))) (.cons (.call _ (.cons (.ident _) .nil)) .nil), rfl, rfl, rfl⟩

/-- Concrete case for `c105_steps`: two calls of a request with two asserts, the second of which stops at its unknown variable; no server is
reached. -/
example : letI := rt64 ⟨true, fun c => [c], id⟩
    let net : Net := ⟨fun _ _ => .refused .tcpConnectFailed ⟨0, 0, 0, 0, 0, 0, 0, 0, 0, 0⟩, fun _ => none⟩
    let asserts : List (Expr F64) := [.binary ⟨.Eq, c!"=="⟩ (.ident c!"status") (.int 200), .binary ⟨.Eq, c!"=="⟩ (.index (.ident c!"x") (.int 0)) (.int 200)]
    let es : List (Expr F64) := [.call c!"get" [], .call c!"get" []]
    nodesAll 0 asserts = 10 ∧ nodesAll 10 es = 24 ∧ (trunBlock net es ⟨Context.new.extend [(c!"get", c!"GET http://a", asserts)], [], []⟩).2 = 18 := by
  decide +kernel

end Am
