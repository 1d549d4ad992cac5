import Verif.Spec.Bodies
import Verif.Props.Growth
import Verif.Props.Printing
import Verif.Props.Responses
import Verif.Props.Values
/-!
# C106: how much room a response takes

The body of a response is parsed, and a map in it may have maps as keys. Such a key becomes the printed map, with escapes before every quotation
mark and every backslash, so each level of nesting doubles them.
-/
set_option linter.unusedSimpArgs false
set_option linter.unusedSectionVars false
namespace Am
open Spec
variable {F : Type} [Rt F]

/-! ## Room for literals -/

theorem plainKey_short {b : Nat} (hT : Tame F b) (k : Expr F) (h : plainKey k) : k.eval.display.length ≤ b + 20 + letters k := by
  cases k with
  | int i => have := intStr_short i; simp only [Expr.eval, Value.display]; omega
  | float f => have := hT.disp f; simp only [Expr.eval, Value.display]; omega
  | bool x => have := boolStr_short x; simp only [Expr.eval, Value.display]; omega
  | str s => simp only [Expr.eval, Value.display, letters]; omega
  | arr _ => exact h.elim
  | map _ => exact h.elim
  | _ => simp only [Expr.eval, Value.display, List.length_cons, List.length_nil]; omega

mutual
theorem eval_plain {b : Nat} (hT : Tame F b) : ∀ e : Expr F, PlainKeys e → bulk e.eval ≤ (b + 30) * nodes 0 e + letters e
  | .int _, _ | .float _, _ | .bool _, _ | .ident _, _ => by simp only [Expr.eval, bulk, nodes, letters]; omega
  | .str s, _ => by simp only [Expr.eval, bulk, nodes, letters]; omega
  | .arr items, h => by
    have := evalItems_plain hT items (by simpa only [PlainKeys] using h)
    simp only [Expr.eval, bulk, nodes, letters, Nat.mul_add]; omega
  | .map pairs, h => by
    have := evalPairs_plain hT pairs [] (by simpa only [PlainKeys] using h)
    simp only [Expr.eval, bulk, nodes, letters, Nat.mul_add, bulkPairs] at *; omega
  | .index l i, _ => by simp only [Expr.eval, bulk, nodes, letters, Nat.mul_add]; omega
  | .field l _, _ => by simp only [Expr.eval, bulk, nodes, letters, Nat.mul_add]; omega
  | .letE _ e, _ => by simp only [Expr.eval, bulk, nodes, letters, Nat.mul_add]; omega
  | .unary _ r, _ => by simp only [Expr.eval, bulk, nodes, letters, Nat.mul_add]; omega
  | .binary _ l r, _ => by simp only [Expr.eval, bulk, nodes, letters, Nat.mul_add]; omega
  | .paren e, _ => by simp only [Expr.eval, bulk, nodes, letters, Nat.mul_add]; omega
  | .ifE c t e, _ => by simp only [Expr.eval, bulk, nodes, letters, Nat.mul_add]; omega
  | .call _ args, _ => by simp only [Expr.eval, bulk, nodes, letters, Nat.mul_add]; omega
theorem evalItems_plain {b : Nat} (hT : Tame F b) : ∀ l : List (Expr F), PlainKeysAll l → bulkAll (Expr.evalItems l) ≤ (b + 30) * nodesAll 0 l + lettersAll l
  | [], _ => Nat.zero_le _
  | e :: l, h => by
    simp only [PlainKeysAll] at h
    have h1 := eval_plain hT e h.1
    have h2 := evalItems_plain hT l h.2
    simp only [Expr.evalItems, bulkAll, nodesAll, lettersAll, Nat.mul_add]; omega
theorem evalPairs_plain {b : Nat} (hT : Tame F b) : ∀ (l : List (Expr F × Expr F)) (acc : List (Str × Value F)), PlainKeysPairs l →
    bulkPairs (Expr.evalPairs acc l) ≤ bulkPairs acc + (b + 30) * nodesPairs 0 l + lettersPairs l
  | [], acc, _ => by simp only [Expr.evalPairs]; omega
  | (k, v) :: l, acc, h => by
    simp only [PlainKeysPairs] at h
    have h1 := plainKey_short hT k h.1
    have h2 := eval_plain hT v h.2.1
    have h3 := evalPairs_plain hT l (amInsert k.eval.display v.eval acc) h.2.2
    have h4 := bulkPairs_insert k.eval.display v.eval acc
    simp only [Expr.evalPairs, nodesPairs, lettersPairs, Nat.mul_add]; omega
end

theorem grow_two {K n i j : Nat} (hK : 1 ≤ K) : K ^ i * n ≤ K ^ (i + j) * n := grow_mono hK (Nat.le_add_right _ _) n

mutual
theorem eval_room {b m : Nat} (hT : Tame F b) : ∀ e : Expr F, letters e < m → bulk e.eval ≤ (b + 50) ^ nodes 0 e * m
  | .int _, h | .float _, h | .bool _, h | .ident _, h | .index _ _, h | .field _ _, h | .letE _ _, h | .unary _ _, h | .binary _ _ _, h | .paren _, h
  | .ifE _ _ _, h | .call _ _, h => by
    refine Nat.le_trans (m := m) ?_ (grow_le (by omega) _ _)
    simp only [Expr.eval, bulk]; omega
  | .str s, h => by
    refine Nat.le_trans (m := m) ?_ (grow_le (by omega) _ _)
    simp only [Expr.eval, bulk, letters] at *; omega
  | .arr items, h => by
    have h1 := evalItems_room hT items (m := m) (by simpa only [letters] using h)
    simp only [Expr.eval, bulk, nodes]
    rw [grow_one]
    have h2 : m ≤ (b + 50) ^ nodesAll 0 items * m := grow_le (by omega) _ _
    generalize (b + 50) ^ nodesAll 0 items * m = X at *
    rw [Nat.add_mul]
    have : 0 ≤ b * X := Nat.zero_le _
    omega
  | .map pairs, h => by
    have h1 := evalPairs_room hT pairs [] (m := m) (by simpa only [letters] using h)
    simp only [Expr.eval, bulk, nodes, bulkPairs] at *
    rw [grow_one]
    have h2 : m ≤ (b + 50) ^ nodesPairs 0 pairs * m := grow_le (by omega) _ _
    generalize (b + 50) ^ nodesPairs 0 pairs * m = X at *
    rw [Nat.add_mul]
    have : 0 ≤ b * X := Nat.zero_le _
    simp only [letters] at h
    omega
theorem evalItems_room {b m : Nat} (hT : Tame F b) : ∀ l : List (Expr F), lettersAll l < m → bulkAll (Expr.evalItems l) ≤ (b + 50) ^ nodesAll 0 l * m
  | [], _ => Nat.zero_le _
  | e :: l, h => by
    simp only [lettersAll] at h
    have h1 := eval_room hT e (m := m) (by omega)
    have h2 := evalItems_room hT l (m := m) (by omega)
    simp only [Expr.evalItems, bulkAll, nodesAll]
    rw [Nat.add_assoc, grow_one]
    have g1 : (b + 50) ^ nodes 0 e * m ≤ (b + 50) ^ (nodes 0 e + nodesAll 0 l) * m := grow_mono (by omega) (by omega) _
    have g2 : (b + 50) ^ nodesAll 0 l * m ≤ (b + 50) ^ (nodes 0 e + nodesAll 0 l) * m := grow_mono (by omega) (by omega) _
    generalize (b + 50) ^ (nodes 0 e + nodesAll 0 l) * m = X at *
    rw [Nat.add_mul]
    omega
theorem evalPairs_room {b m : Nat} (hT : Tame F b) : ∀ (l : List (Expr F × Expr F)) (acc : List (Str × Value F)), lettersPairs l < m →
    bulkPairs (Expr.evalPairs acc l) ≤ bulkPairs acc + (b + 50) ^ nodesPairs 0 l * m
  | [], acc, _ => by simp only [Expr.evalPairs]; omega
  | (k, v) :: l, acc, h => by
    simp only [lettersPairs] at h
    have h1 := eval_room hT k (m := m) (by omega)
    have h2 := eval_room hT v (m := m) (by omega)
    have h3 := evalPairs_room hT l (amInsert k.eval.display v.eval acc) (m := m) (by omega)
    have h4 := bulkPairs_insert k.eval.display v.eval acc
    have h5 := display_short hT k.eval
    simp only [Expr.evalPairs, nodesPairs]
    rw [Nat.add_assoc, Nat.add_assoc, grow_one]
    have g1 : (b + 50) ^ nodes 0 k * m ≤ (b + 50) ^ (nodes 0 k + (nodes 0 v + nodesPairs 0 l)) * m := grow_mono (by omega) (by omega) _
    have g2 : (b + 50) ^ nodes 0 v * m ≤ (b + 50) ^ (nodes 0 k + (nodes 0 v + nodesPairs 0 l)) * m := grow_mono (by omega) (by omega) _
    have g3 : (b + 50) ^ nodesPairs 0 l * m ≤ (b + 50) ^ (nodes 0 k + (nodes 0 v + nodesPairs 0 l)) * m := grow_mono (by omega) (by omega) _
    have g4 : m ≤ (b + 50) ^ (nodes 0 k + (nodes 0 v + nodesPairs 0 l)) * m := grow_le (by omega) _ _
    have g5 : (b + 40) * bulk k.eval ≤ (b + 40) * ((b + 50) ^ (nodes 0 k + (nodes 0 v + nodesPairs 0 l)) * m) := Nat.mul_le_mul_left _ (Nat.le_trans h1 g1)
    generalize (b + 50) ^ (nodes 0 k + (nodes 0 v + nodesPairs 0 l)) * m = X at *
    have e1 : (b + 50) * X = (b + 40) * X + 10 * X := by rw [← Nat.add_mul]
    rw [e1]
    omega
end

/-! ## The map of a response -/

theorem bulkPairs_replace {k : Str} {u : Value F} (v : Value F) : ∀ {l : List (Str × Value F)}, amGet k l = some u →
    bulkPairs (amInsert k v l) + bulk u = bulkPairs l + bulk v
  | [], h => nomatch h
  | (j, w) :: l, h => by
    simp only [amGet] at h
    simp only [amInsert]
    by_cases hj : j = k
    · rw [if_pos hj] at h ⊢
      cases h
      simp only [bulkPairs, hj]; omega
    · rw [if_neg hj] at h ⊢
      have := bulkPairs_replace v h
      simp only [bulkPairs]; omega

theorem addHeader_room (m : List (Str × Value F)) (h : Header) : bulkPairs (addHeader m h) ≤ bulkPairs m + (3 + h.name.length + h.value.length) := by
  unfold addHeader
  cases hg : amGet h.name m with
  | none => have := bulkPairs_insert h.name (.arr [.str h.value]) m; simp only [bulk, bulkAll] at this; dsimp only; omega
  | some u =>
    cases u with
    | arr items =>
      have := bulkPairs_replace (.arr (items ++ [.str h.value])) hg
      simp only [bulk, bulkAll_append, bulkAll] at this; dsimp only; omega
    | _ => have := bulkPairs_insert h.name (.arr [.str h.value]) m; simp only [bulk, bulkAll] at this; dsimp only; omega

theorem headerMap_room : ∀ (hs : List Header) (m : List (Str × Value F)), bulkPairs (hs.foldl addHeader m) ≤ bulkPairs m + 3 * headersExtent hs
  | [], m => by simp only [List.foldl_nil]; omega
  | h :: hs, m => by
    have h1 := addHeader_room m h
    have h2 := headerMap_room hs (addHeader m h)
    simp only [List.foldl_cons, headersExtent]; omega

theorem baseMap_room (r : Response) : bulkPairs (r.baseMap (F := F)) ≤ 40 + 3 * extent r := by
  have h1 := headerMap_room (F := F) r.headers []
  unfold Response.baseMap extent
  dsimp only
  have a1 := bulkPairs_insert (F := F) c!"version" (.str r.version) []
  generalize amInsert c!"version" (Value.str (F := F) r.version) [] = m1 at *
  have a2 := bulkPairs_insert c!"status" (.int (Int64.ofNat r.status)) m1
  generalize amInsert c!"status" (.int (Int64.ofNat r.status)) m1 = m2 at *
  have a3 := bulkPairs_insert c!"reason" (.str r.reason) m2
  generalize amInsert c!"reason" (.str r.reason) m2 = m3 at *
  have a4 := bulkPairs_insert c!"headers" (.map (headerMap r.headers)) m3
  generalize amInsert c!"headers" (.map (headerMap r.headers)) m3 = m4 at *
  have a5 := bulkPairs_insert c!"body" (.str r.body) m4
  change bulkPairs (headerMap r.headers) ≤ _ at h1
  simp only [bulk, bulkPairs, List.length_cons, List.length_nil] at *
  omega

theorem first_small {text : Str} {src : Source F} {e : Expr F} {l : List (Expr F)} (h : parse text = .ok src) (he : src.exprs = e :: l) :
    nodes 0 e ≤ 2 * (text.length + 1) ∧ letters e ≤ text.length := by
  obtain ⟨h1, h2, _⟩ := parse_small h
  rw [he] at h1 h2
  simp only [nodesAll, lettersAll] at h1 h2
  omega

/-- C106 (partial): when no key in the body is an array or a map, as in every JSON text, the map of a response takes room in proportion to it. -/
theorem c106_room_partial {b : Nat} (hT : Tame F b) {r : Response} {map : List (Str × Value F)} (h : r.toMap = .ok map)
    (hk : ∀ (src : Source F) e l, parse r.body = .ok src → src.exprs = e :: l → PlainKeys e) : bulkPairs map ≤ (2 * b + 120) * extent r := by
  have hb := baseMap_room (F := F) r
  have he : 1 ≤ extent r := by unfold extent; omega
  have hl : r.body.length + 1 ≤ extent r := by unfold extent; omega
  have hx : (b + 30) * (2 * (r.body.length + 1)) ≤ (b + 30) * (2 * extent r) := Nat.mul_le_mul_left _ (by omega)
  have hc : (2 * b + 120) * extent r = (b + 30) * (2 * extent r) + 60 * extent r := by
    rw [← Nat.mul_assoc, ← Nat.add_mul]; congr 1; omega
  unfold Response.toMap at h
  cases hp : (parse r.body : Res (Source F)) with
  | ok src =>
    rw [hp] at h
    dsimp only at h
    cases hs : src.exprs with
    | nil =>
      rw [hs] at h
      cases h
      rw [hc]; omega
    | cons e l =>
      rw [hs] at h
      cases h
      obtain ⟨n1, n2⟩ := first_small hp hs
      have h1 := eval_plain hT e (hk src e l hp hs)
      have h2 := bulkPairs_insert c!"json" e.eval (r.baseMap (F := F))
      have h3 : (b + 30) * nodes 0 e ≤ (b + 30) * (2 * (r.body.length + 1)) := Nat.mul_le_mul_left _ n1
      simp only [List.length_cons, List.length_nil] at h2
      rw [hc]; omega
  | err _ =>
    rw [hp] at h
    cases h
    rw [hc]; omega
  | panic => rw [hp] at h; cases h
  | hang => rw [hp] at h; cases h

/-- C106 (partial): in general the room is at most exponential in the body. -/
theorem c106_general_partial {b : Nat} (hT : Tame F b) {r : Response} {map : List (Str × Value F)} (h : r.toMap = .ok map) :
    bulkPairs map ≤ 50 * extent r + (b + 50) ^ (2 * (r.body.length + 1)) * (r.body.length + 1) := by
  have hb := baseMap_room (F := F) r
  have he : 1 ≤ extent r := by unfold extent; omega
  unfold Response.toMap at h
  cases hp : (parse r.body : Res (Source F)) with
  | ok src =>
    rw [hp] at h
    dsimp only at h
    cases hs : src.exprs with
    | nil =>
      rw [hs] at h
      cases h
      omega
    | cons e l =>
      rw [hs] at h
      cases h
      obtain ⟨n1, n2⟩ := first_small hp hs
      have h1 := eval_room hT (m := r.body.length + 1) e (by omega)
      have h2 := bulkPairs_insert c!"json" e.eval (r.baseMap (F := F))
      have h3 : (b + 50) ^ nodes 0 e * (r.body.length + 1) ≤ (b + 50) ^ (2 * (r.body.length + 1)) * (r.body.length + 1) := grow_mono (by omega) n1 _
      generalize (b + 50) ^ (2 * (r.body.length + 1)) * (r.body.length + 1) = X at *
      simp only [List.length_cons, List.length_nil] at h2
      omega
  | err _ =>
    rw [hp] at h
    cases h
    omega
  | panic => rw [hp] at h; cases h
  | hang => rw [hp] at h; cases h

/-! ## Maps as keys -/

/-- `{{{1: 1}: 1}: 1}`: a map whose key is such a map, `n` deep. -/
def nested : Nat → Expr F
  | 0 => .int 1
  | n + 1 => .map [(nested n, .int 1)]

/-- Its tokens. -/
def nestedTokens : Nat → List Token
  | 0 => [⟨.Integer, c!"1"⟩]
  | n + 1 => ⟨.Lb, c!"{"⟩ :: ((nestedTokens n ++ ⟨.Colon, c!":"⟩ :: [⟨.Integer, c!"1"⟩]) ++ [⟨.Rb, c!"}"⟩])

theorem nested_parse (n : Nat) : parse (nested (F := F) n).display = .ok ⟨[nested (F := F) n], [], []⟩ := by
  refine c10_reads_partial _ (nestedTokens n) ?_ ?_ ?_ ?_
  · induction n with
    | zero => exact .int _ _ rfl ((parseI64_iff).1 (by rfl))
    | succ n ih => exact .map _ _ _ _ rfl rfl (.last _ _ _ _ _ rfl ih (.int _ _ rfl ((parseI64_iff).1 (by rfl))))
  · induction n with
    | zero => intro t ht; simp only [nestedTokens, List.mem_singleton] at ht; subst ht; simp [TokenOk]; rfl
    | succ n ih =>
      intro t ht
      simp only [nestedTokens, List.mem_cons, List.mem_append, List.mem_singleton, List.not_mem_nil, or_false] at ht
      rcases ht with rfl | (ht | rfl | rfl) | rfl
      · simp [TokenOk]; rfl
      · exact ih t ht
      · simp [TokenOk]; rfl
      · simp [TokenOk]; rfl
      · simp [TokenOk]; rfl
  · induction n with
    | zero => exact .int _
    | succ n ih => exact .map _ (.cons _ _ _ ih (.int _) .nil)
  · induction n with
    | zero => trivial
    | succ n ih => exact ⟨ih, trivial, trivial⟩

theorem nested_succ (n : Nat) : (nested (F := F) (n + 1)).display = c!"{" ++ (nested (F := F) n).display ++ c!": 1}" := by
  simp only [nested, Expr.display, Expr.displayPairs, joinStr]
  have : intStr (1 : Int64).toInt = c!"1" := rfl
  rw [this]
  simp

theorem nested_length (n : Nat) : (nested (F := F) n).display.length = 1 + 5 * n := by
  induction n with
  | zero => rfl
  | succ n ih => rw [nested_succ]; simp only [List.length_append, List.length_cons, List.length_nil, ih]; omega

/-- The quotation marks and backslashes of a text. -/
def marks (s : Str) : Nat := s.countP (· == '"') + s.countP (· == '\\')

theorem marks_append (a b : Str) : marks (a ++ b) = marks a + marks b := by
  simp only [marks, List.countP_append]; omega

/-- Escaping doubles the marks. -/
theorem marks_escaped (s : Str) : marks s + marks s ≤ marks (s.flatMap (escapeChar (F := F))) := by
  induction s with
  | nil => exact Nat.le_refl _
  | cons c s ih =>
    rw [List.flatMap_cons, marks_append]
    have hc : marks (c :: s) = marks [c] + marks s := marks_append [c] s
    have : marks [c] + marks [c] ≤ marks (escapeChar (F := F) c) := by
      by_cases h1 : c = '"'
      · subst h1; exact Nat.le_of_ble_eq_true rfl
      by_cases h2 : c = '\\'
      · subst h2; exact Nat.le_of_ble_eq_true rfl
      have : marks [c] = 0 := by simp [marks, h1, h2]
      omega
    omega

theorem nested_shown (ho : ∀ p, Rt.order F [p] = [p]) (n : Nat) :
    (nested (F := F) (n + 1)).eval.display = c!"{" ++ (debugStr F (nested (F := F) n).eval.display ++ c!": Integer(1)") ++ c!"}" := by
  have hi : (Value.int (F := F) 1).debug = c!"Integer(1)" := by
    simp only [Value.debug]
    have : intStr (1 : Int64).toInt = c!"1" := rfl
    rw [this]; rfl
  simp only [nested, Expr.eval, Expr.evalPairs, amInsert, Value.display, Value.debugPairs, ho, List.map_cons, List.map_nil, joinStr, hi]
  simp

theorem nested_marks (ho : ∀ p, Rt.order F [p] = [p]) (n : Nat) : 2 ^ (n + 1) ≤ marks (nested (F := F) n).eval.display + 2 := by
  induction n with
  | zero => exact Nat.le_add_left _ _
  | succ n ih =>
    rw [nested_shown ho]
    simp only [debugStr, marks_append]
    have h1 := marks_escaped (F := F) (nested (F := F) n).eval.display
    have h2 : marks c!"\"" = 1 := by decide
    rw [Nat.pow_succ]
    omega

theorem marks_length (s : Str) : marks s ≤ s.length := by
  induction s with
  | nil => exact Nat.le_refl _
  | cons c s ih =>
    have : marks (c :: s) = marks [c] + marks s := marks_append [c] s
    have : marks [c] ≤ 1 := by
      by_cases h1 : c = '"'
      · subst h1; decide
      by_cases h2 : c = '\\'
      · subst h2; decide
      simp [marks, h1, h2]
    simp only [List.length_cons]; omega

/-- C106: a body of `6 + 5 * n` characters, `{{1: 1}: 1}` with `n + 1` levels, is taken for a map with a key of at least `2 ^ (n + 1) - 2`
characters. -/
theorem c106_escapes (ho : ∀ p, Rt.order F [p] = [p]) (r : Response) (n : Nat) (hr : r.body = (nested (F := F) (n + 1)).display) :
    r.body.length = 6 + 5 * n ∧ ∃ map k, r.toMap (F := F) = .ok map ∧ amGet c!"json" map = some (.map [(k, .int 1)]) ∧ 2 ^ (n + 1) ≤ k.length + 2 := by
  refine ⟨by rw [hr, nested_length]; omega, amInsert c!"json" (nested (n + 1)).eval r.baseMap, (nested (F := F) n).eval.display, ?_, ?_, ?_⟩
  · unfold Response.toMap
    rw [hr, nested_parse]
  · rw [amGet_insert_self]
    simp only [nested, Expr.eval, Expr.evalPairs, amInsert]
  · exact Nat.le_trans (nested_marks ho n) (Nat.add_le_add_right (marks_length _) 2)

/-- C106, the full claim: a response, as a map, takes room in proportion to its characters. -/
def MapInProportion (F : Type) [Rt F] : Prop := ∃ c : Nat, ∀ (r : Response) (map : List (Str × Value F)), r.toMap = .ok map → bulkPairs map ≤ c * extent r

/-- C106 is false: maps as keys double the escapes on every level. -/
theorem c106_false (ho : ∀ p, Rt.order F [p] = [p]) : ¬ MapInProportion F := by
  rintro ⟨c, h⟩
  obtain ⟨h1, map, k, h2, h3, h4⟩ := c106_escapes ho ⟨[], 0, [], [], (nested (F := F) (2 * (c + 9) + 1)).display⟩ (2 * (c + 9)) rfl
  have h5 := h _ _ h2
  have h6 := bulkPairs_get h3
  simp only [bulk, bulkPairs] at h6
  have h7 : extent ⟨[], 0, [], [], (nested (F := F) (2 * (c + 9) + 1)).display⟩ = 7 + 5 * (2 * (c + 9)) := by
    unfold extent; dsimp only at h1 ⊢; rw [h1]; simp only [headersExtent, List.length_nil]; omega
  rw [h7] at h5
  have p1 := pow_big c
  have p3 : 2 ^ (2 * (c + 9) + 1) = 2 ^ (c + 9) * 2 ^ (c + 9) * 2 := by rw [Nat.pow_succ, pow_double]
  rw [p3] at h4
  generalize 2 ^ (c + 9) = x at *
  have p4 : c * (12 + 14 * (2 * (c + 9)) + 1) ≤ x * x := too_big p1
  have p5 : c * (7 + 5 * (2 * (c + 9))) ≤ c * (12 + 14 * (2 * (c + 9)) + 1) := Nat.mul_le_mul_left c (by omega)
  have p6 : 1 ≤ x * x := Nat.mul_pos (by omega) (by omega)
  omega

/-- With the floats of Rust, whatever the order in which maps are shown. -/
theorem c106_false64 (w : Build) (h : ∀ l, (w.order l).Perm l) : ¬ @MapInProportion F64 (rt64 w) :=
  @c106_false F64 (rt64 w) fun p => List.perm_singleton.1 (h [p])

/-- C106, for the bytes a server sends: after the status line and an empty line, such a body. -/
theorem c106_server (ho : ∀ p, Rt.order F [p] = [p]) (n : Nat) :
    ∃ r map k, Response.read ⟨utf8 (c!"HTTP/1.1 200 OK\r\n\r\n" ++ (nested (F := F) (n + 1)).display), none⟩ = .ok r ∧
      (c!"HTTP/1.1 200 OK\r\n\r\n" ++ (nested (F := F) (n + 1)).display).length = 25 + 5 * n ∧
      r.toMap (F := F) = .ok map ∧ amGet c!"json" map = some (.map [(k, .int 1)]) ∧ 2 ^ (n + 1) ≤ k.length + 2 := by
  obtain ⟨r, h1, _, _, _, h5⟩ := c41_wellformed c!"HTTP/1.1" c!"200" c!"OK" [] (nested (F := F) (n + 1)).display 200 ⟨by decide, by decide⟩
    ⟨by decide, .digits c!"200" (by decide) (by decide) (by decide)⟩ (by decide) nofun
  obtain ⟨_, map, k, g1, g2, g3⟩ := c106_escapes ho r n h5
  refine ⟨r, map, k, h1, ?_, g1, g2, g3⟩
  rw [List.length_append, nested_length]
  simp only [List.length_cons, List.length_nil]; omega

/-! ## What is read is no longer than what is received -/

theorem trims_short {s t : Str} (h : Trims s t) : t.length ≤ s.length := by
  obtain ⟨a, b, rfl, _⟩ := h
  simp only [List.length_append]; omega

theorem first_short {s l r : Str} (h : FirstLine s l r) : l.length + r.length ≤ s.length := by
  cases h with
  | only l _ => simp
  | more l r _ => simp only [List.length_append, List.length_cons]; omega

theorem headerText_short {s body : Str} {hs : List Header} (h : HeaderText s hs body) : headersExtent hs + body.length ≤ s.length := by
  induction h with
  | blank s l r hf _ => have := first_short hf; simp only [headersExtent]; omega
  | skip s l r hs body hf _ _ _ ih => have := first_short hf; omega
  | field s n v name value r hs body hf _ h1 h2 _ ih =>
    have := first_short hf
    have := trims_short h1
    have := trims_short h2
    simp only [headersExtent, List.length_append, List.length_cons] at *; omega

theorem words_short {s : Str} {ws : List Str} (h : Words s ws) : (ws.map List.length).sum ≤ s.length := by
  induction h with
  | none s _ => simp
  | cons sp w r ws _ _ _ _ _ ih => simp only [List.map_cons, List.sum_cons, List.length_append]; omega

theorem words_two (ws : List Str) : (parseText ws[0]?).length + (parseText ws[2]?).length ≤ (ws.map List.length).sum := by
  match ws with
  | [] => simp [parseText]
  | [a] => simp [parseText]
  | [a, b] => simp [parseText]
  | a :: b :: c :: l => simp [parseText]; omega

theorem utf8_longer (s : Str) : s.length ≤ (utf8 s).length := by
  rw [utf8_length]
  induction s with
  | nil => exact Nat.le_refl _
  | cons c s ih =>
    have : 1 ≤ utf8Width c := by unfold utf8Width; repeat' split
                                 all_goals omega
    simp only [List.map_cons, List.sum_cons, List.length_cons]; omega

/-- C106: a response has no more characters and headers than bytes were received. -/
theorem c106_read {inc : Incoming} {r : Response} (h : Response.read inc = .ok r) : extent r ≤ inc.bytes.length + 1 := by
  obtain ⟨h1, s, h2⟩ := responseRead_ok h
  obtain ⟨bs, f⟩ := inc
  cases h1
  dsimp only at h2
  subst h2
  obtain ⟨line, rest, ws, hs, body, hf, hw, hh, _⟩ := c41_total s
  rw [responseRead_text hf hw hh] at h
  cases h
  have a1 := first_short hf
  have a2 := words_short hw
  have a3 := words_two ws
  have a4 := headerText_short hh
  have a5 := utf8_longer s
  simp only [extent]
  omega

/-- C106 (partial), from the bytes to the map: in proportion when no key is an array or a map. -/
theorem c106_bytes_partial {b : Nat} (hT : Tame F b) {inc : Incoming} {r : Response} {map : List (Str × Value F)} (hr : Response.read inc = .ok r)
    (h : r.toMap = .ok map) (hk : ∀ (src : Source F) e l, parse r.body = .ok src → src.exprs = e :: l → PlainKeys e) :
    bulkPairs map ≤ (2 * b + 120) * (inc.bytes.length + 1) :=
  Nat.le_trans (c106_room_partial hT h hk) (Nat.mul_le_mul_left _ (c106_read hr))

/-- The bytes a server sends are at most `m`. -/
def SendsAtMost (m : Nat) (net : Net) : Prop := ∀ sent text inc c, net.exch sent text = .answered inc c → inc.bytes.length ≤ m

/-- C106 (partial), for C104: when no answer has more than `m` bytes, every map of a response is bounded. -/
theorem c106_answers_partial {b m : Nat} (hT : Tame F b) {net : Net} (h : SendsAtMost m net) :
    Answers F net (50 * (m + 1) + (b + 50) ^ (2 * (m + 1)) * (m + 1)) := by
  have hx : ∀ sent text rq rs t e, send net sent text = .ok (rq, rs, t, e) → extent rs ≤ m + 1 := by
    intro sent text rq rs t e h1
    have h0 : extent Response.default ≤ m + 1 := by
      show 1 + 0 + 0 + 0 + 0 ≤ m + 1
      omega
    unfold send exchange at h1
    cases hx : net.exch sent text with
    | refused error c => rw [hx] at h1; cases h1; exact h0
    | broken error c =>
      rw [hx] at h1
      dsimp only at h1
      cases ht : Time.connected c with
      | ok t => rw [ht] at h1; cases h1; exact h0
      | err _ => rw [ht] at h1; cases h1
      | panic => rw [ht] at h1; cases h1
      | hang => rw [ht] at h1; cases h1
    | answered inc c =>
      rw [hx] at h1
      dsimp only at h1
      cases ht : Time.connected c with
      | ok t1 =>
        rw [ht, Res.ok_bind] at h1
        cases hr : Response.read inc with
        | ok resp =>
          rw [hr] at h1
          dsimp only at h1
          cases ht2 : t1.completed c with
          | ok t2 =>
            rw [ht2] at h1
            cases h1
            have := c106_read hr
            have := h sent text inc c hx
            omega
          | err _ => rw [ht2] at h1; cases h1
          | panic => rw [ht2] at h1; cases h1
          | hang => rw [ht2] at h1; cases h1
        | err _ => rw [hr] at h1; cases h1; exact h0
        | panic => rw [hr] at h1; cases h1
        | hang => rw [hr] at h1; cases h1
      | err _ => rw [ht] at h1; cases h1
      | panic => rw [ht] at h1; cases h1
      | hang => rw [ht] at h1; cases h1
  intro sent text rq rs t e map h1 h2
  have h3 := hx sent text rq rs t e h1
  have h4 := c106_general_partial hT h2
  have h5 : rs.body.length + 1 ≤ m + 1 := by unfold extent at h3; omega
  have h6 : (b + 50) ^ (2 * (rs.body.length + 1)) * (rs.body.length + 1) ≤ (b + 50) ^ (2 * (m + 1)) * (m + 1) :=
    Nat.mul_le_mul (Nat.pow_le_pow_right (by omega) (by omega)) h5
  omega

/-- Concrete case for `c106_bytes_partial`: a JSON body with string keys; and for `c106_escapes`: a body of 16 characters. -/
example : PlainKeys (F := F) (.map [(.str c!"a", .arr [.int 1, .map [(.str c!"b", .str c!"c")]])]) ∧
    (nested (F := F) 3).display = c!"{{{1: 1}: 1}: 1}" := by
  refine ⟨?_, rfl⟩
  simp [PlainKeys, PlainKeysPairs, PlainKeysAll, plainKey]

end Am
