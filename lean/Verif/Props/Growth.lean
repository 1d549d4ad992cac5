import Verif.Proofs.GrowthEval
import Verif.Props.Joining
import Verif.Props.Steps
/-! # C104: how much room a script can take -/
set_option linter.unusedSimpArgs false
set_option linter.unusedSectionVars false
set_option exponentiation.threshold 100
namespace Am
open Spec

/-! ## Texts of floats -/

namespace F64

theorem pick_le {f : F64} {k : Int} {p q d : Nat} (h : pick f k p q = some d) : d ≤ p + 1 := by
  have := Nat.div_le_self p q
  unfold pick at h
  dsimp only at h
  repeat' split at h
  all_goals cases h
  all_goals omega

theorem search_le {f : F64} {u : Nat} : ∀ n, n ≤ 1382 → (search f u (-1074) n).1 ≤ u * 10 ^ 1074 + 1 ∧ -1074 ≤ (search f u (-1074) n).2 ∧ (search f u (-1074) n).2 ≤ 308
  | 0, _ => by
    refine ⟨?_, Int.le_refl _, by simp only [search]; omega⟩
    simp only [search]
    cases h : nearby f u (-1074) with
    | none => exact Nat.zero_le _
    | some d => exact pick_le h
  | n + 1, hn => by
    simp only [search]
    cases h : nearby f u (-1074 + (n + 1 : Nat)) with
    | none => exact search_le n (by omega)
    | some d =>
      dsimp only
      refine ⟨?_, by omega, by omega⟩
      have h1 := pick_le h
      have h2 : u * 10 ^ (-(-1074 + ((n + 1 : Nat) : Int))).toNat ≤ u * 10 ^ 1074 :=
        Nat.mul_le_mul_left u (Nat.pow_le_pow_right (by decide) (by omega))
      omega

theorem shortest_le {m e : Nat} (h : Canon m e) : (natStr (shortest m e h).1).length ≤ 1800 ∧ -1074 ≤ (shortest m e h).2 ∧ (shortest m e h).2 ≤ 308 := by
  obtain ⟨h1, h2, h3⟩ := search_le (f := .fin false m e h) (u := m * 2 ^ e) 1382 (Nat.le_refl _)
  refine ⟨natStr_short (by decide) (Nat.lt_of_le_of_lt h1 ?_), h2, h3⟩
  have e1 : m * 2 ^ e ≤ 10 ^ 700 := by
    calc m * 2 ^ e ≤ 2 ^ 53 * 2 ^ 2045 := Nat.mul_le_mul (Nat.le_of_lt h.1) (Nat.pow_le_pow_right (by decide) h.2.1)
      _ = 2 ^ (53 + 2045) := (Nat.pow_add ..).symm
      _ ≤ 2 ^ (3 * 700) := Nat.pow_le_pow_right (by decide) (by decide)
      _ = (2 ^ 3) ^ 700 := Nat.pow_mul ..
      _ ≤ 10 ^ 700 := Nat.pow_le_pow_left (by decide) _
  have e2 : m * 2 ^ e * 10 ^ 1074 ≤ 10 ^ (700 + 1074) := by
    rw [Nat.pow_add]
    exact Nat.mul_le_mul_right _ e1
  have e3 : 10 ^ (700 + 1074) + 1 ≤ 10 ^ (700 + 1074 + 1) := by
    have : 1 ≤ 10 ^ (700 + 1074) := Nat.one_le_pow _ _ (by decide)
    rw [Nat.pow_succ]
    omega
  have e4 : (10 : Nat) ^ (700 + 1074 + 1) < 10 ^ 1800 := (Nat.pow_lt_pow_iff_right (by decide)).2 (by decide)
  omega

theorem plain_short (point : Bool) (d : Nat) (k : Int) (h : (natStr d).length ≤ 1800) (h1 : -1074 ≤ k) (h2 : k ≤ 308) : (plain point d k).length ≤ 2990 := by
  simp only [plain]
  split
  · simp only [List.length_append, List.length_replicate]
    split <;> simp only [List.length_cons, List.length_nil] <;> omega
  · split
    · simp only [List.length_append, List.length_cons, List.length_take, List.length_drop]; omega
    · simp only [List.length_append, List.length_cons, List.length_nil, List.length_replicate]; omega

theorem minus_short (b : Bool) : (minus b).length ≤ 1 := by cases b <;> decide

theorem disp_short (f : F64) : f.disp.length ≤ 3000 := by
  cases f with
  | nan => exact (by decide : (3 : Nat) ≤ 3000)
  | inf n => have := minus_short n; simp only [disp, List.length_append, List.length_cons, List.length_nil]; omega
  | fin n m e h =>
    have := minus_short n
    obtain ⟨h1, h2, h3⟩ := shortest_le h
    have := plain_short false _ _ h1 h2 h3
    simp only [disp, List.length_append]
    split
    · simp only [List.length_cons, List.length_nil]; omega
    · omega

theorem debug_short (f : F64) : f.debug.length ≤ 3000 := by
  cases f with
  | nan => exact (by decide : (3 : Nat) ≤ 3000)
  | inf n => have := minus_short n; simp only [debug, List.length_append, List.length_cons, List.length_nil]; omega
  | fin n m e h =>
    have := minus_short n
    obtain ⟨h1, h2, h3⟩ := shortest_le h
    have h4 := plain_short true _ _ h1 h2 h3
    have h5 : (scientific (shortest m e h).1 (shortest m e h).2).length ≤ 2990 := by
      simp only [scientific]
      have : (intStr ((shortest m e h).2 + (natStr (shortest m e h).1).length - 1)).length ≤ 20 := by
        unfold intStr
        have : (natStr ((shortest m e h).2 + (natStr (shortest m e h).1).length - 1).natAbs).length ≤ 19 := natStr_short (by decide) (by omega)
        split
        · simp only [List.length_cons]; omega
        · omega
      simp only [List.length_append, List.length_take, List.length_cons, List.length_nil]
      split
      · simp only [List.length_nil]; omega
      · simp only [List.length_cons, List.length_drop]; omega
    simp only [debug, List.length_append]
    split
    · simp only [List.length_cons, List.length_nil]; omega
    · split
      · omega
      · omega

end F64

/-- The floats of Rust are tame: no text of one is longer than 3000 characters. -/
theorem c104_tame (w : Build) (h1 : ∀ c, (w.escape c).length ≤ 10) (h2 : ∀ l, (w.order l).Perm l) : @Tame F64 (rt64 w) 3000 :=
  letI := rt64 w
  ⟨F64.disp_short, F64.debug_short, fun c => Nat.le_trans (h1 c) (by decide), h2⟩

variable {F : Type} [Rt F]

/-! ## What is written in a text -/

/-- The characters of tokens. -/
def lits : List Token → Nat
  | [] => 0
  | t :: ts => t.literal.length + lits ts

theorem lits_append (a b : List Token) : lits (a ++ b) = lits a + lits b := by
  induction a with
  | nil => simp only [List.nil_append, lits, Nat.zero_add]
  | cons t l ih => simp only [List.cons_append, lits, ih]; omega

/-- Tokens are written without overlaps. -/
theorem segment_lits (text : Str) : lits (segment text) ≤ text.length := by
  induction text using lex_induction with
  | hnil => exact Nat.le_refl 0
  | hws c cs h ih => rw [segment_ws c cs h, List.length_cons]; omega
  | htok c cs h ih =>
    have hs := lexOne_ok c cs h
    rw [segment_tok c cs h]
    simp only [lits]
    rcases hs with ⟨_, h1, _⟩ | ⟨hr, q, lit, h1, _, h2⟩
    · have h3 := congrArg List.length h1
      have h4 : (lexOne c cs).1.literal.length ≤ (spell (lexOne c cs).1).length := by
        unfold spell
        split <;> (try simp only [List.length_append, List.length_cons, List.length_nil]) <;> omega
      rw [List.length_append] at h3
      omega
    · have h3 := congrArg List.length h2
      rw [hr] at ih
      have h4 : lits (segment []) = 0 := rfl
      rw [hr, h4]
      have h5 : (lexOne c cs).1.literal = lit := by
        rcases h1 with ⟨_, h1⟩ | ⟨_, h1⟩ <;> rw [h1]
      rw [h5, h3, List.length_cons]
      omega

mutual
theorem reads_small {e : Expr F} {ts : List Token} (h : Reads e ts) : nodes 0 e + 1 ≤ 2 * ts.length ∧ letters e ≤ lits ts := by
  match h with
  | .int t i _ _ => simp only [nodes, letters, List.length_cons, List.length_nil]; omega
  | .float t f _ _ => simp only [nodes, letters, List.length_cons, List.length_nil]; omega
  | .bool t b _ _ => simp only [nodes, letters, List.length_cons, List.length_nil]; omega
  | .str t _ => simp only [nodes, letters, lits, List.length_cons, List.length_nil]; omega
  | .ident t _ => simp only [nodes, letters, List.length_cons, List.length_nil]; omega
  | .arr l r es ts _ _ h1 =>
    have ih := readsList_small h1
    simp only [nodes, letters, lits, lits_append, List.length_cons, List.length_nil, List.length_append]; omega
  | .map l r ps ts _ _ h1 =>
    have ih := readsPairs_small h1
    simp only [nodes, letters, lits, lits_append, List.length_cons, List.length_nil, List.length_append]; omega
  | .index l r e i te ti _ _ h1 h2 =>
    have ih1 := reads_small h1
    have ih2 := reads_small h2
    simp only [nodes, letters, lits, lits_append, List.length_cons, List.length_nil, List.length_append]; omega
  | .field d n e te _ _ h1 =>
    have ih1 := reads_small h1
    simp only [nodes, letters, lits, lits_append, List.length_cons, List.length_nil, List.length_append]; omega
  | .letE l n a v tv sm _ _ _ h1 _ =>
    have ih1 := reads_small h1
    simp only [nodes, letters, lits, lits_append, List.length_cons, List.length_nil, List.length_append]; omega
  | .unary op e te _ h1 =>
    have ih1 := reads_small h1
    simp only [nodes, letters, lits, lits_append, List.length_cons, List.length_nil, List.length_append]; omega
  | .binary op l r tl tr _ h1 h2 =>
    have ih1 := reads_small h1
    have ih2 := reads_small h2
    simp only [nodes, letters, lits, lits_append, List.length_cons, List.length_nil, List.length_append]; omega
  | .paren l r e te _ _ h1 =>
    have ih1 := reads_small h1
    simp only [nodes, letters, lits, lits_append, List.length_cons, List.length_nil, List.length_append]; omega
  | .ifThen i l r c t tc tt _ _ _ h1 h2 =>
    have ih1 := reads_small h1
    have ih2 := readsBlock_small h2
    simp only [nodes, nodesAll, letters, lettersAll, lits, lits_append, List.length_cons, List.length_nil, List.length_append]; omega
  | .ifElse i l r el c t e tc tt te _ _ _ _ h1 h2 h3 =>
    have ih1 := reads_small h1
    have ih2 := readsBlock_small h2
    have ih3 := readsBlock_small h3
    simp only [nodes, letters, lits, lits_append, List.length_cons, List.length_nil, List.length_append]; omega
  | .call f l r es ts _ _ _ h1 =>
    have ih1 := readsList_small h1
    simp only [nodes, letters, lits, lits_append, List.length_cons, List.length_nil, List.length_append]; omega
theorem readsList_small {es : List (Expr F)} {ts : List Token} (h : ReadsList es ts) : nodesAll 0 es ≤ 2 * ts.length ∧ lettersAll es ≤ lits ts := by
  match h with
  | .nil => exact ⟨Nat.zero_le _, Nat.zero_le _⟩
  | .last e te h1 =>
    have ih := reads_small h1
    simp only [nodesAll, lettersAll]; omega
  | .cons e es c te ts _ h1 h2 =>
    have ih1 := reads_small h1
    have ih2 := readsList_small h2
    simp only [nodesAll, lettersAll, lits, lits_append, List.length_cons, List.length_append]; omega
theorem readsPairs_small {ps : List (Expr F × Expr F)} {ts : List Token} (h : ReadsPairs ps ts) : nodesPairs 0 ps ≤ 2 * ts.length ∧ lettersPairs ps ≤ lits ts := by
  match h with
  | .nil => exact ⟨Nat.zero_le _, Nat.zero_le _⟩
  | .last k v c tk tv _ h1 h2 =>
    have ih1 := reads_small h1
    have ih2 := reads_small h2
    simp only [nodesPairs, lettersPairs, lits, lits_append, List.length_cons, List.length_append]; omega
  | .cons k v ps c m tk tv ts _ _ h1 h2 h3 =>
    have ih1 := reads_small h1
    have ih2 := reads_small h2
    have ih3 := readsPairs_small h3
    simp only [nodesPairs, lettersPairs, lits, lits_append, List.length_cons, List.length_append]; omega
theorem readsBlock_small {es : List (Expr F)} {ts : List Token} (h : ReadsBlock es ts) : nodesAll 0 es ≤ 2 * ts.length ∧ lettersAll es ≤ lits ts := by
  match h with
  | .mk l r es ts _ _ h1 =>
    have ih := readsSeq_small h1
    simp only [lits, lits_append, List.length_cons, List.length_append]; omega
theorem readsSeq_small {es : List (Expr F)} {ts : List Token} (h : ReadsSeq es ts) : nodesAll 0 es ≤ 2 * ts.length ∧ lettersAll es ≤ lits ts := by
  match h with
  | .nil => exact ⟨Nat.zero_le _, Nat.zero_le _⟩
  | .cons e es te sm ts h1 _ h2 =>
    have ih1 := reads_small h1
    have ih2 := readsSeq_small h2
    simp only [nodesAll, lettersAll, lits, lits_append, List.length_cons, List.length_append]; omega
end

theorem nodesAll_append (a : Nat) (l r : List (Expr F)) : nodesAll a (l ++ r) = nodesAll a l + nodesAll a r := by
  induction l with
  | nil => simp only [List.nil_append, nodesAll, Nat.zero_add]
  | cons e l ih => simp only [List.cons_append, nodesAll, ih]; omega

theorem lettersAll_append (l r : List (Expr F)) : lettersAll (l ++ r) = lettersAll l + lettersAll r := by
  induction l with
  | nil => simp only [List.nil_append, lettersAll, Nat.zero_add]
  | cons e l ih => simp only [List.cons_append, lettersAll, ih]; omega

theorem readsSource_small {items : List (Item F)} {ts : List Token} (h : ReadsSource items ts) : ∀ (src : Source F) (k j : Nat),
    nodesAll 0 src.exprs ≤ k → lettersAll src.exprs ≤ j → (∀ p ∈ src.requests, nodesAll 0 p.2.2 ≤ k ∧ lettersAll p.2.2 ≤ j) →
    nodesAll 0 (items.foldl addItem src).exprs ≤ k + 2 * ts.length ∧ lettersAll (items.foldl addItem src).exprs ≤ j + lits ts ∧
    (∀ p ∈ (items.foldl addItem src).requests, nodesAll 0 p.2.2 ≤ k + 2 * ts.length ∧ lettersAll p.2.2 ≤ j + lits ts) := by
  induction h with
  | nil t _ =>
    intro src k j h1 h2 h3
    refine ⟨by simp only [List.foldl_nil]; omega, by simp only [List.foldl_nil]; omega, fun p hp => ?_⟩
    have := h3 p hp
    omega
  | cons i is ti sm ts hi _ _ ih =>
    intro src k j h1 h2 h3
    have step : nodesAll 0 (addItem src i).exprs ≤ k + 2 * ti.length ∧ lettersAll (addItem src i).exprs ≤ j + lits ti ∧
        (∀ p ∈ (addItem src i).requests, nodesAll 0 p.2.2 ≤ k + 2 * ti.length ∧ lettersAll p.2.2 ≤ j + lits ti) := by
      have old : ∀ p ∈ src.requests, nodesAll 0 p.2.2 ≤ k + 2 * ti.length ∧ lettersAll p.2.2 ≤ j + lits ti := fun p hp => by
        have := h3 p hp
        omega
      cases hi with
      | expr e ts hr =>
        have := reads_small hr
        refine ⟨?_, ?_, old⟩
        · simp only [addItem, nodesAll_append, nodesAll]; omega
        · simp only [addItem, lettersAll_append, lettersAll]; omega
      | request r n m _ _ _ =>
        refine ⟨by simp only [addItem]; omega, by simp only [addItem]; omega, fun p hp => ?_⟩
        rcases mem_amInsert hp with rfl | hp
        · exact ⟨Nat.zero_le _, Nat.zero_le _⟩
        · exact old p hp
      | requestAsserts r n m lb rb es ts _ _ _ _ _ hr =>
        have := readsList_small hr
        refine ⟨by simp only [addItem]; omega, by simp only [addItem]; omega, fun p hp => ?_⟩
        rcases mem_amInsert hp with rfl | hp
        · simp only [lits, lits_append, List.length_cons, List.length_append]; omega
        · exact old p hp
      | test t n es ts _ _ _ => exact ⟨by simp only [addItem]; omega, by simp only [addItem]; omega, old⟩
    obtain ⟨s1, s2, s3⟩ := step
    obtain ⟨r1, r2, r3⟩ := ih (addItem src i) (k + 2 * ti.length) (j + lits ti) s1 s2 s3
    simp only [List.foldl_cons, lits_append, List.length_append]
    refine ⟨by omega, by omega, fun p hp => ?_⟩
    have := r3 p hp
    omega

/-- The nodes and letters of a text: at most two nodes for each character and the end, and no more letters than characters. -/
theorem parse_small {text : Str} {src : Source F} (h : parse text = .ok src) :
    nodesAll 0 src.exprs ≤ 2 * (text.length + 1) ∧ lettersAll src.exprs ≤ text.length ∧
    (∀ p ∈ src.requests, nodesAll 0 p.2.2 ≤ 2 * (text.length + 1) ∧ lettersAll p.2.2 ≤ text.length) := by
  obtain ⟨items, h1, rfl, _⟩ := parse_items text src h
  obtain ⟨r1, r2, r3⟩ := readsSource_small h1 ⟨[], [], []⟩ 0 0 (Nat.le_refl 0) (Nat.le_refl 0) nofun
  have g1 := segment_short text
  have g2 := segment_lits text
  refine ⟨by omega, by omega, fun p hp => ?_⟩
  have := r3 p hp
  omega

/-! ## How much room -/

/-- C104 (partial). Evaluating a script leaves variables that take at most as much room as before, times a constant for every node of the script
(and of the asserts, where a request is called). The full claim has the room in proportion to the script; it is false (`c104_false`). -/
theorem c104_room_partial {b a m : Nat} (hT : Tame F b) {net : Net} (hnet : Answers F net m) {s : St F} (hs : bulkPairs s.ctx.inner < m) {es : List (Expr F)}
    (hl : lettersAll es < m)
    (hrq : ∀ name message asserts, s.ctx.request name = some (message, asserts) → nodesAll 0 asserts ≤ a ∧ lettersAll asserts < m) :
    bulkPairs (runBlock net es s).2.ctx.inner + resRoom bulk (runBlock net es s).1 ≤ (b + 50) ^ nodesAll a es * m :=
  (evalBlock_fits hT (Nat.le_refl _) (callAt_fits hT (Nat.le_refl _) (by omega) hnet hrq 0) es .null s m hl (Nat.le_refl _) rfl (by simp only [bulk]; omega)).2

/-- With the floats of Rust the constant is 3050. -/
theorem c104_room64_partial (w : Build) (h1 : ∀ c, (w.escape c).length ≤ 10) (h2 : ∀ l, (w.order l).Perm l) {a m : Nat} {net : Net}
    (hnet : @Answers F64 (rt64 w) net m) {s : St F64} (hs : bulkPairs s.ctx.inner < m) {es : List (Expr F64)} (hl : lettersAll es < m)
    (hrq : ∀ name message asserts, s.ctx.request name = some (message, asserts) → nodesAll 0 asserts ≤ a ∧ lettersAll asserts < m) :
    bulkPairs (@runBlock F64 (rt64 w) net es s).2.ctx.inner ≤ 3050 ^ nodesAll a es * m :=
  Nat.le_trans (Nat.le_add_right _ _) (@c104_room_partial F64 (rt64 w) 3000 a m (c104_tame w h1 h2) net hnet s hs es hl hrq)

mutual
theorem nodes_calls (a : Nat) : ∀ e : Expr F, nodes a e ≤ (1 + a) * nodes 0 e
  | .int _ | .float _ | .bool _ | .str _ | .ident _ => by simp only [nodes]; omega
  | .arr items => by have := nodesAll_calls a items; simp only [nodes, Nat.mul_add]; omega
  | .map pairs => by have := nodesPairs_calls a pairs; simp only [nodes, Nat.mul_add]; omega
  | .index l i => by have := nodes_calls a l; have := nodes_calls a i; simp only [nodes, Nat.mul_add]; omega
  | .field l _ => by have := nodes_calls a l; simp only [nodes, Nat.mul_add]; omega
  | .letE _ e => by have := nodes_calls a e; simp only [nodes, Nat.mul_add]; omega
  | .unary _ r => by have := nodes_calls a r; simp only [nodes, Nat.mul_add]; omega
  | .binary _ l r => by have := nodes_calls a l; have := nodes_calls a r; simp only [nodes, Nat.mul_add]; omega
  | .paren e => by have := nodes_calls a e; simp only [nodes, Nat.mul_add]; omega
  | .ifE c t e => by have := nodes_calls a c; have := nodesAll_calls a t; have := nodesAll_calls a e; simp only [nodes, Nat.mul_add]; omega
  | .call _ args => by have := nodesAll_calls a args; simp only [nodes, Nat.mul_add]; omega
termination_by structural e => e
theorem nodesAll_calls (a : Nat) : ∀ l : List (Expr F), nodesAll a l ≤ (1 + a) * nodesAll 0 l
  | [] => Nat.zero_le _
  | e :: l => by have := nodes_calls a e; have := nodesAll_calls a l; simp only [nodesAll, Nat.mul_add]; omega
termination_by structural l => l
theorem nodesPairs_calls (a : Nat) : ∀ l : List (Expr F × Expr F), nodesPairs a l ≤ (1 + a) * nodesPairs 0 l
  | [] => Nat.zero_le _
  | (k, v) :: l => by have := nodes_calls a k; have := nodes_calls a v; have := nodesPairs_calls a l; simp only [nodesPairs, Nat.mul_add]; omega
termination_by structural l => l
end

/-- The requests of a run are those of the text. -/
theorem known_request {rq : List (Str × (Str × List (Expr F)))} {name message : Str} {asserts : List (Expr F)}
    (h : (Context.new.extend rq).request name = some (message, asserts)) : (name, message, asserts) ∈ rq := by
  have ho : ∀ (l : List (Str × (Str × List (Expr F)))) (acc : List (Str × (Str × List (Expr F)))), (name, message, asserts) ∈ amExtend acc l →
      (name, message, asserts) ∈ acc ∨ (name, message, asserts) ∈ l := by
    intro l
    induction l with
    | nil => intro acc hx; exact Or.inl hx
    | cons p l ih =>
      intro acc hx
      rcases ih _ hx with hx | hx
      · rcases mem_amInsert hx with hx | hx
        · exact Or.inr (by rw [hx]; exact List.mem_cons_self)
        · exact Or.inl hx
      · exact Or.inr (List.mem_cons_of_mem _ hx)
  rcases ho _ _ (amGet_mem h) with hx | hx
  · exact nomatch hx
  · exact hx

/-- C104 (partial), for the text of a script: with `k` characters and the end, and responses of at most `r`, the variables take at most
`(b + 50) ^ (2k (2k + 1)) * (k + r)`. -/
theorem c104_text_partial {b r : Nat} (hT : Tame F b) {net : Net} (hnet : Answers F net r) {text : Str} {src : Source F} (h : parse text = .ok src) :
    bulkPairs (runBlock net src.exprs ⟨Context.new.extend src.requests, [], []⟩).2.ctx.inner ≤
      (b + 50) ^ (2 * (text.length + 1) * (2 * (text.length + 1) + 1)) * (text.length + 1 + r) := by
  obtain ⟨h1, h2, h3⟩ := parse_small h
  have := c104_room_partial (a := 2 * (text.length + 1)) (m := text.length + 1 + r) hT
    (fun sent text rq rs t e map e1 e2 => Nat.le_trans (hnet sent text rq rs t e map e1 e2) (Nat.le_add_left _ _))
    (s := ⟨Context.new.extend src.requests, [], []⟩) (by show 0 < _; omega) (es := src.exprs) (by omega) (by
      intro name message asserts hr
      have := h3 _ (known_request hr)
      dsimp only at this
      omega)
  refine Nat.le_trans (Nat.le_trans (Nat.le_add_right _ _) this) ?_
  refine grow_mono (by omega) ?_ _
  refine Nat.le_trans (nodesAll_calls _ _) ?_
  rw [Nat.mul_comm, Nat.add_comm 1]
  exact Nat.mul_le_mul_right _ h1

/-! ## A few lines are enough to fill any memory -/

/-- The script that doubles a string `n` times. -/
def doubling (n : Nat) : Str := unlines (c!"let a = \"x\"" :: List.replicate n c!"let a = a + a")

/-- The expression of its lines but the first. -/
def twice : Expr F := .letE c!"a" (.binary ⟨.Add, c!"+"⟩ (.ident c!"a") (.ident c!"a"))

theorem one_item {es acc : List (Expr F)} {items : List (Item F)} (h : items.foldl addItem ⟨acc, [], []⟩ = ⟨es, [], []⟩) : es = acc ++ exprsOf items ∧
    ∀ i ∈ items, ∃ e, i = .expr e := by
  induction items generalizing acc with
  | nil => cases h; exact ⟨by simp only [exprsOf, List.append_nil], nofun⟩
  | cons i is ih =>
    cases i with
    | expr e =>
      obtain ⟨h1, h2⟩ := ih h
      refine ⟨by rw [h1, exprsOf, List.append_assoc]; rfl, fun j hj => ?_⟩
      rcases List.mem_cons.1 hj with rfl | hj
      · exact ⟨e, rfl⟩
      · exact h2 j hj
    | request n m as =>
      exfalso
      have keep : ∀ (is : List (Item F)) (src : Source F), src.requests ≠ [] → (is.foldl addItem src).requests ≠ [] := by
        intro is
        induction is with
        | nil => intro src h; exact h
        | cons i is ih =>
          intro src h
          refine ih _ ?_
          cases i with
          | expr e => exact h
          | request n m as => exact amInsert_nonempty _ _ _
          | test n b => exact h
      have := keep is (addItem ⟨acc, [], []⟩ (.request n m as)) (amInsert_nonempty _ _ _)
      rw [List.foldl_cons] at h
      rw [h] at this
      exact this rfl
    | test n b =>
      exfalso
      have keep : ∀ (is : List (Item F)) (src : Source F), src.tests ≠ [] → (is.foldl addItem src).tests ≠ [] := by
        intro is
        induction is with
        | nil => intro src h; exact h
        | cons i is ih =>
          intro src h
          refine ih _ ?_
          cases i with
          | expr e => exact h
          | request n m as => exact h
          | test n b => exact amInsert_nonempty _ _ _
      have := keep is (addItem ⟨acc, [], []⟩ (.test n b)) (amInsert_nonempty _ _ _)
      rw [List.foldl_cons] at h
      rw [h] at this
      exact this rfl

theorem one_expr {e : Expr F} {items : List (Item F)} (h : (⟨[e], [], []⟩ : Source F) = items.foldl addItem ⟨[], [], []⟩) : items = [.expr e] := by
  obtain ⟨h1, h2⟩ := one_item h.symm
  match items, h1, h2 with
  | [], h1, _ => cases h1
  | [i], h1, h2 =>
    obtain ⟨x, rfl⟩ := h2 i List.mem_cons_self
    cases h1
    rfl
  | i :: j :: l, h1, h2 =>
    obtain ⟨x, rfl⟩ := h2 i List.mem_cons_self
    obtain ⟨y, rfl⟩ := h2 j (List.mem_cons_of_mem _ List.mem_cons_self)
    cases h1

theorem noExt_of {t : Token} {c : Char} {r : Str} (h : extends' t c = false) : NoExt t (c :: r) := by
  intro d u e
  cases e
  exact h

theorem first_standalone : Standalone (F := F) c!"let a = \"x\"" [.expr (.letE c!"a" (.str c!"x"))] := by
  have hp : parse (F := F) c!"let a = \"x\"" = .ok ⟨[.letE c!"a" (.str c!"x")], [], []⟩ := rfl
  obtain ⟨items, h1, h2⟩ := (c79_accepts _ _).1 hp
  rw [one_expr h2] at h1
  refine ⟨_, ?_, h1⟩
  have w1 : AllWs [] := by simp [AllWs]
  have w2 : AllWs c!" " := by intro c hc; rw [List.mem_singleton.1 hc]; decide
  exact .tok true [] ⟨.Let, c!"let"⟩ c!" a = \"x\"" _ w1 rfl (noExt_of rfl)
    (.tok true c!" " ⟨.Ident, c!"a"⟩ c!" = \"x\"" _ w2 ⟨⟨'a', [], rfl, by decide, nofun⟩, by decide⟩ (noExt_of rfl)
    (.tok true c!" " ⟨.Assign, c!"="⟩ c!" \"x\"" _ w2 rfl (noExt_of rfl)
    (.tok true c!" " ⟨.String, c!"x"⟩ [] _ w2 (show '"' ∉ c!"x" by decide) nofun (.eof [] w1))))

theorem twice_standalone : Standalone (F := F) c!"let a = a + a" [.expr twice] := by
  have hp : parse (F := F) c!"let a = a + a" = .ok ⟨[twice], [], []⟩ := rfl
  obtain ⟨items, h1, h2⟩ := (c79_accepts _ _).1 hp
  rw [one_expr h2] at h1
  exact standalone_noQuote (by decide) (by decide) h1

theorem doubling_parse (n : Nat) : parse (F := F) (doubling n) = .ok ⟨.letE c!"a" (.str c!"x") :: List.replicate n twice, [], []⟩ := by
  have := c82_joined (F := F) ((c!"let a = \"x\"", [.expr (.letE c!"a" (.str c!"x"))]) :: List.replicate n (c!"let a = a + a", [.expr twice])) (by
    intro p hp
    rcases List.mem_cons.1 hp with rfl | hp
    · exact ⟨first_standalone, newStart_first (by decide) (by decide)⟩
    · rw [(List.mem_replicate.1 hp).2]
      exact ⟨twice_standalone, newStart_first (by decide) (by decide)⟩)
  have h := accepted_items (standalone_accepted this.1)
  rw [List.map_cons, List.map_replicate] at h
  refine h.trans ?_
  congr 1
  have go : ∀ (n : Nat) (acc : List (Expr F)), ((List.replicate n (c!"let a = a + a", [Item.expr twice])).flatMap Prod.snd).foldl addItem (⟨acc, [], []⟩ : Source F) =
      ⟨acc ++ List.replicate n twice, [], []⟩ := by
    intro n
    induction n with
    | zero => intro acc; simp only [List.replicate_zero, List.flatMap_nil, List.foldl_nil, List.append_nil]
    | succ n ih =>
      intro acc
      simp only [List.replicate_succ, List.flatMap_cons, List.singleton_append, List.foldl_cons, addItem]
      rw [ih, List.append_assoc]
      rfl
  exact go n [.letE c!"a" (.str c!"x")]

theorem doubling_length (n : Nat) : (doubling n).length = 12 + 14 * n := by
  have go : ∀ n, (unlines (List.replicate n c!"let a = a + a")).length = 14 * n := by
    intro n
    induction n with
    | zero => rfl
    | succ n ih => simp only [List.replicate_succ, unlines, List.length_append, List.length_cons, List.length_nil, ih]; omega
  simp only [doubling, unlines, List.length_append, List.length_cons, List.length_nil, go]
  omega

theorem twice_run (net : Net) (n : Nat) : ∀ (s : St F) (t : Str) (acc : Value F), s.ctx.get c!"a" = some (.str t) → acc = .str t →
    ∃ s' u, evalBlock (callAt net 1) acc (List.replicate n twice) s = (.ok (.str u), s') ∧ s'.ctx.get c!"a" = some (.str u) ∧ u.length = 2 ^ n * t.length := by
  induction n with
  | zero => intro s t acc h ha; exact ⟨s, t, by rw [ha]; rfl, h, by simp⟩
  | succ n ih =>
    intro s t acc h ha
    have h1 : evalExpr (callAt net 1) (twice (F := F)) s = (.ok (.str (t ++ t)), { s with ctx := s.ctx.set c!"a" (.str (t ++ t)) }) := by
      have hi : evalExpr (callAt net 1) (.ident c!"a" : Expr F) s = (.ok (.str t), s) := by simp only [evalExpr, h]
      have hb : evalExpr (callAt net 1) (.binary ⟨.Add, c!"+"⟩ (.ident c!"a") (.ident c!"a") : Expr F) s = (.ok (.str (t ++ t)), s) := by
        show (do
          let a ← evalExpr (callAt net 1) (.ident c!"a" : Expr F)
          let b ← evalExpr (callAt net 1) (.ident c!"a" : Expr F)
          M.lift (Value.add a b) : M F (Value F)) s = _
        rw [M.bind_ok hi, M.bind_ok hi]
        rfl
      simp only [twice]
      rw [evalExpr, M.bind_ok hb]
      rfl
    obtain ⟨s', u, e1, e2, e3⟩ := ih { s with ctx := s.ctx.set c!"a" (.str (t ++ t)) } (t ++ t) (.str (t ++ t)) (amGet_insert_self _ _ _) rfl
    refine ⟨s', u, ?_, e2, ?_⟩
    · rw [List.replicate_succ, evalBlock, M.bind_ok h1]
      exact e1
    · rw [e3, List.length_append, Nat.pow_succ, Nat.mul_assoc]
      congr 1
      omega

/-- C104: every further line of fourteen characters doubles the room. -/
theorem c104_doubles (net : Net) (n : Nat) : ∃ src : Source F, parse (doubling n) = .ok src ∧ (doubling n).length = 12 + 14 * n ∧ src.requests = [] ∧ src.tests = [] ∧
    ∃ u s', runBlock net src.exprs ⟨Context.new, [], []⟩ = (.ok (.str u), s') ∧ u.length = 2 ^ n ∧ s'.ctx.get c!"a" = some (.str u) := by
  refine ⟨_, doubling_parse n, doubling_length n, rfl, rfl, ?_⟩
  obtain ⟨s', u, e1, e2, e3⟩ := twice_run (F := F) net n ⟨Context.new.set c!"a" (.str c!"x"), [], []⟩ c!"x" (.str c!"x") rfl rfl
  exact ⟨u, s', e1, by rw [e3]; simp, e2⟩

/-- C104, the full claim: the room the variables of a script without requests take is in proportion to the length of its text. -/
def InProportion (F : Type) [Rt F] : Prop := ∃ c : Nat, ∀ (net : Net) (text : Str) (src : Source F), parse text = .ok src → src.requests = [] →
  bulkPairs (runBlock net src.exprs ⟨Context.new, [], []⟩).2.ctx.inner ≤ c * (text.length + 1)

theorem pow_double (x k : Nat) : x ^ (2 * k) = x ^ k * x ^ k := by rw [Nat.two_mul, Nat.pow_add]

theorem too_big {c x : Nat} (h : 30 * (c + 9) + 14 ≤ x) : c * (12 + 14 * (2 * (c + 9)) + 1) ≤ x * x := by
  have h1 : c ≤ x := by omega
  have h2 : 12 + 14 * (2 * (c + 9)) + 1 ≤ x := by generalize c + 9 = k at *; omega
  exact Nat.mul_le_mul h1 h2

theorem pow_big (k : Nat) : 30 * (k + 9) + 14 ≤ 2 ^ (k + 9) := by
  induction k with
  | zero => decide
  | succ k ih => rw [show k + 1 + 9 = (k + 9) + 1 by omega, Nat.pow_succ]; omega

/-- C104 is false: doubling a string in every line takes room that is exponential in the text. -/
theorem c104_false (net : Net) : ¬ InProportion F := by
  rintro ⟨c, h⟩
  obtain ⟨src, h1, h2, h3, _, u, s', h4, h5, h6⟩ := c104_doubles (F := F) net (2 * (c + 9))
  have := h net _ src h1 h3
  rw [h4, h2] at this
  have hb := bulkPairs_get h6
  simp only [bulk, h5] at hb
  dsimp only at this
  have p1 := pow_big c
  have p3 : 2 ^ (2 * (c + 9)) = 2 ^ (c + 9) * 2 ^ (c + 9) := pow_double 2 (c + 9)
  rw [p3] at hb
  generalize 2 ^ (c + 9) = x at *
  have p4 : c * (12 + 14 * (2 * (c + 9)) + 1) ≤ x * x := too_big p1
  exact absurd (Nat.le_trans hb (Nat.le_trans this p4)) (by omega)

/-- Concrete case for `c104_room_partial`: no server can be reached, and the script calls a request with an assert; 200 bounds all there is at the
start. -/
example (c : Clocks) : Answers F ⟨fun _ _ => .refused .hostNotFound c, fun _ => none⟩ 200 ∧
    bulkPairs (F := F) (Context.new (F := F)).inner < 200 ∧ lettersAll (F := F) [.letE c!"r" (.call c!"get" []), twice] < 200 ∧
    nodesAll 1 (F := F) [.letE c!"r" (.call c!"get" []), twice] = 9 := by
  refine ⟨?_, Nat.zero_lt_succ _, Nat.le_of_ble_eq_true rfl, rfl⟩
  intro sent text rq rs t e map h1 h2
  cases h1
  cases h2
  exact Nat.le_of_ble_eq_true rfl

end Am
