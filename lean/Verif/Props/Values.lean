import Verif.Props.Asserting
import Verif.Proofs.Ints
/-! # C24, C25, C26, C29: arrays, maps, comparisons, `length` and `append` -/
set_option linter.unusedSimpArgs false
set_option linter.unusedSectionVars false
namespace Am
open Spec
variable {F : Type} [Rt F]

/-! ## C24 -/

theorem toUInt64_toNat_nonneg (i : Int64) (h : 0 ≤ i.toInt) : i.toUInt64.toNat = i.toInt.toNat := by
  have h1 : (i.toUInt64.toNat : Int) = i.toBitVec.toNat := rfl
  have h2 : i.toInt = i.toBitVec.toInt := rfl
  rw [BitVec.toInt_eq_toNat_bmod] at h2
  have hlt := i.toBitVec.isLt
  rw [h2] at h ⊢
  simp only [Int.bmod] at h ⊢
  show i.toBitVec.toNat = _
  split at h <;> split <;> omega

theorem toUInt64_toNat_neg (i : Int64) (h : i.toInt < 0) : 9223372036854775808 ≤ i.toUInt64.toNat := by
  have h2 : i.toInt = i.toBitVec.toInt := rfl
  rw [BitVec.toInt_eq_toNat_bmod] at h2
  have hlt := i.toBitVec.isLt
  rw [h2] at h
  simp only [Int.bmod] at h
  show 9223372036854775808 ≤ i.toBitVec.toNat
  split at h <;> omega

/-- C24: indexing an array with any 64-bit integer gives the item at that position when there is one and null otherwise, in particular for
every negative index. It never fails. (A `Vec` holds fewer than 2^63 items.) -/
theorem c24_index (net : Net) (l e : Expr F) (s s1 s2 : St F) (items : List (Value F)) (i : Int64) (hlen : items.length < 2 ^ 63)
    (hl : eval net l s = (.ok (.arr items), s1)) (he : eval net e s1 = (.ok (.int i), s2)) :
    (∀ v, 0 ≤ i.toInt → items[i.toInt.toNat]? = some v → eval net (.index l e) s = (.ok v, s2)) ∧
    (i.toInt < 0 ∨ (items.length : Int) ≤ i.toInt → eval net (.index l e) s = (.ok .null, s2)) := by
  have h : eval net (.index l e) s = (.ok ((items[i.toUInt64.toNat]?).getD .null), s2) := by
    unfold eval at *
    simp only [evalExpr]
    rw [M.bind_ok hl, M.bind_ok he]
    rfl
  rw [h]
  constructor
  · intro v hi hv
    rw [toUInt64_toNat_nonneg i hi, hv]
    rfl
  · intro hi
    have : items[i.toUInt64.toNat]? = none := by
      rw [List.getElem?_eq_none_iff]
      by_cases hn : i.toInt < 0
      · have := toUInt64_toNat_neg i hn
        omega
      · rw [toUInt64_toNat_nonneg i (by omega)]
        omega
    rw [this]
    rfl

/-- C24: indexing writes no variable: only a `let` inside the operands can, so the array variable is unchanged. -/
theorem c24_unchanged (net : Net) (l e : Expr F) (s : St F) (x : Str) (hl : x ∉ lets l) (he : x ∉ lets e) :
    (eval net (.index l e) s).2.ctx.get x = s.ctx.get x :=
  c17_frame_expr net _ s x (by simp [lets, hl, he])

example (net : Net) (s : St F) : eval net (.index (.arr [.int 7, .int 8]) (.int 1)) s = (.ok (.int 8), s) := rfl
example (net : Net) (s : St F) : eval net (.index (.arr [.int 7, .int 8]) (.int (-1))) s = (.ok .null, s) := rfl

/-! ## C25 -/

/-- The value of the last pair with key `k`. -/
def lastOf {V : Type} (k : Str) : List (Str × V) → Option V
  | [] => none
  | (k', v) :: l => match lastOf k l with
    | some w => some w
    | none => if k' = k then some v else none

/-- The pairs of a map literal are evaluated in order, key before value, to these texts and values. -/
inductive PairsRun (net : Net) : List (Expr F × Expr F) → St F → List (Str × Value F) → St F → Prop
  | nil (s : St F) : PairsRun net [] s [] s
  | cons {k v : Expr F} {l : List (Expr F × Expr F)} {s s1 s2 s3 : St F} {a b : Value F} {kvs : List (Str × Value F)} :
      eval net k s = (.ok a, s1) → eval net v s1 = (.ok b, s2) → PairsRun net l s2 kvs s3 →
      PairsRun net ((k, v) :: l) s ((a.display, b) :: kvs) s3

theorem evalPairs_run (net : Net) : ∀ (l : List (Expr F × Expr F)) (acc : List (Str × Value F)) (s s' : St F) (m : List (Str × Value F)),
    evalPairs (callAt net 1) acc l s = (.ok m, s') → ∃ kvs, PairsRun net l s kvs s' ∧ (KeysNodup acc → KeysNodup m) ∧
      ∀ k, amGet k m = match lastOf k kvs with | some w => some w | none => amGet k acc := by
  intro l
  induction l with
  | nil => intro acc s s' m h; cases h; exact ⟨[], .nil _, id, fun k => rfl⟩
  | cons p l ih =>
    obtain ⟨k, v⟩ := p
    intro acc s s' m h
    simp only [evalPairs] at h
    obtain ⟨a, s1, h1, h⟩ := M.bind_ok_inv h
    obtain ⟨b, s2, h2, h⟩ := M.bind_ok_inv h
    obtain ⟨kvs, h3, h4, h5⟩ := ih _ _ _ _ h
    refine ⟨_, .cons h1 h2 h3, fun hn => h4 (amInsert_nodup hn), fun x => ?_⟩
    rw [h5 x]
    simp only [lastOf]
    cases lastOf x kvs with
    | some w => rfl
    | none =>
      dsimp only
      rw [amGet_insert]
      split <;> rfl

/-- C25: a map literal holds, for each key text, the value of the last pair whose key prints as that text, and nothing else; keys are
distinct. -/
theorem c25_literal (net : Net) (pairs : List (Expr F × Expr F)) (s s' : St F) (v : Value F) (h : eval net (.map pairs) s = (.ok v, s')) :
    ∃ kvs m, PairsRun net pairs s kvs s' ∧ v = .map m ∧ KeysNodup m ∧ ∀ k, amGet k m = lastOf k kvs := by
  unfold eval at h
  simp only [evalExpr] at h
  obtain ⟨m, s1, h1, h⟩ := M.bind_ok_inv h
  cases h
  obtain ⟨kvs, h2, h3, h4⟩ := evalPairs_run net _ _ _ _ _ h1
  refine ⟨kvs, m, h2, rfl, h3 (by simp [KeysNodup]), fun k => ?_⟩
  rw [h4 k]
  cases lastOf k kvs <;> rfl

/-- C25: `m[k]` and `m.k` return the value at the key, or null if absent. -/
theorem c25_lookup (net : Net) (l e : Expr F) (name : Str) (s s1 s2 : St F) (m : List (Str × Value F)) (k : Value F)
    (hl : eval net l s = (.ok (.map m), s1)) (he : eval net e s1 = (.ok k, s2)) :
    eval net (.index l e) s = (.ok (match amGet k.display m with | some v => v | none => .null), s2) ∧
    eval net (.field l name) s = (.ok (match amGet name m with | some v => v | none => .null), s1) := by
  unfold eval at *
  simp only [evalExpr]
  rw [M.bind_ok hl, M.bind_ok he, M.bind_ok hl]
  constructor
  · show (indexValue (.map m) k, s2) = _
    have : indexValue (.map m) k = .ok ((amGet k.display m).getD .null) := by cases k <;> rfl
    rw [this]
    cases amGet k.display m <;> rfl
  · show (Res.ok ((amGet name m).getD .null), s1) = _
    cases amGet name m <;> rfl

/-- C25: `m.k` equals `m["k"]`. -/
theorem c25_field_is_index (net : Net) (l : Expr F) (name : Str) (s s1 : St F) (m : List (Str × Value F)) (hl : eval net l s = (.ok (.map m), s1)) :
    eval net (.field l name) s = eval net (.index l (.str name)) s := by
  rw [(c25_lookup net l (.str name) name s s1 s1 m (.str name) hl rfl).1, (c25_lookup net l (.str name) name s s1 s1 m (.str name) hl rfl).2]
  rfl

/-- C25: on any other operand field access is an error, and so is indexing — except an array with an integer (C24). -/
theorem c25_not_container (net : Net) (l e : Expr F) (name : Str) (s s1 s2 : St F) (v k : Value F)
    (hl : eval net l s = (.ok v, s1)) (he : eval net e s1 = (.ok k, s2)) (hv : ∀ m, v ≠ .map m) :
    (∃ msg, eval net (.field l name) s = (.err msg, s1)) ∧
    ((∀ items i, ¬(v = .arr items ∧ k = .int i)) → ∃ msg, eval net (.index l e) s = (.err msg, s2)) := by
  unfold eval at *
  simp only [evalExpr]
  rw [M.bind_ok hl, M.bind_ok hl, M.bind_ok he]
  constructor
  · cases v with
    | map m => exact absurd rfl (hv m)
    | _ => exact ⟨_, rfl⟩
  · intro hn
    cases v with
    | map m => exact absurd rfl (hv m)
    | arr items =>
      cases k with
      | int i => exact absurd ⟨rfl, rfl⟩ (hn items i)
      | _ => exact ⟨_, rfl⟩
    | _ => exact ⟨_, rfl⟩

/-- Concrete case: a key that occurs twice, written as a string and as an integer. -/
example (net : Net) (s : St F) : eval net (.map [(.str c!"1", .int 5), (.str c!"x", .int 7), (.int 1, .int 6)]) s =
    (.ok (.map [(c!"1", .int 6), (c!"x", .int 7)]), s) := rfl

/-! ## C26 -/

theorem i64Cmp_cases (a b : Int64) : (a.toInt < b.toInt ∧ i64Cmp a b = .lt) ∨ (a = b ∧ i64Cmp a b = .eq) ∨ (b.toInt < a.toInt ∧ i64Cmp a b = .gt) := by
  unfold i64Cmp
  by_cases h1 : a.toInt < b.toInt
  · exact Or.inl ⟨h1, by rw [if_pos h1]⟩
  · rw [if_neg h1]
    by_cases h2 : b.toInt < a.toInt
    · exact Or.inr (Or.inr ⟨h2, by rw [if_pos h2]⟩)
    · refine Or.inr (Or.inl ⟨Int64.toInt_inj.1 (by omega), by rw [if_neg h2]⟩)

theorem char_eq_of_toNat {a b : Char} (h : a.toNat = b.toNat) : a = b :=
  Char.ext (UInt32.toNat_inj.1 h)

theorem strCmp_lt : ∀ (a b : Str), strCmp a b = .lt ↔ TextLt a b := by
  intro a
  induction a with
  | nil =>
    intro b
    cases b with
    | nil => exact ⟨fun h => (by cases h), fun h => (by cases h)⟩
    | cons y b => exact ⟨fun _ => .nil, fun _ => rfl⟩
  | cons x a ih =>
    intro b
    cases b with
    | nil => exact ⟨fun h => (by cases h), fun h => (by cases h)⟩
    | cons y b =>
      simp only [strCmp]
      by_cases h1 : x.toNat < y.toNat
      · rw [if_pos h1]; exact ⟨fun _ => .head h1, fun _ => rfl⟩
      · rw [if_neg h1]
        by_cases h2 : y.toNat < x.toNat
        · rw [if_pos h2]
          refine ⟨fun h => (by cases h), fun h => ?_⟩
          cases h with
          | head h => exact absurd h h1
          | tail h => omega
        · rw [if_neg h2, ih b]
          have he : x = y := char_eq_of_toNat (by omega)
          subst he
          refine ⟨fun h => .tail h, fun h => ?_⟩
          cases h with
          | head h => exact absurd h h1
          | tail h => exact h

theorem strCmp_gt : ∀ (a b : Str), strCmp a b = .gt ↔ strCmp b a = .lt := by
  intro a
  induction a with
  | nil => intro b; cases b <;> simp [strCmp]
  | cons x a ih =>
    intro b
    cases b with
    | nil => simp [strCmp]
    | cons y b =>
      simp only [strCmp]
      by_cases h1 : x.toNat < y.toNat
      · rw [if_pos h1, if_neg (by omega), if_pos h1]; simp
      · rw [if_neg h1]
        by_cases h2 : y.toNat < x.toNat
        · rw [if_pos h2, if_pos h2]; simp
        · rw [if_neg h2, if_neg h2, if_neg h1]; exact ih b

theorem strCmp_eq : ∀ (a b : Str), strCmp a b = .eq ↔ a = b := by
  intro a
  induction a with
  | nil => intro b; cases b <;> simp [strCmp]
  | cons x a ih =>
    intro b
    cases b with
    | nil => simp [strCmp]
    | cons y b =>
      simp only [strCmp]
      by_cases h1 : x.toNat < y.toNat
      · rw [if_pos h1]; simp only [List.cons.injEq, false_iff, reduceCtorEq]; rintro ⟨h, _⟩; subst h; omega
      · rw [if_neg h1]
        by_cases h2 : y.toNat < x.toNat
        · rw [if_pos h2]; simp only [List.cons.injEq, false_iff, reduceCtorEq]; rintro ⟨h, _⟩; subst h; omega
        · rw [if_neg h2, ih b]
          have he : x = y := char_eq_of_toNat (by omega)
          subst he
          simp

/-- What is assumed of `f64` comparison: `==` holds exactly when `partial_cmp` says equal, and `partial_cmp` is antisymmetric. -/
def FloatsCompare (F : Type) [Rt F] : Prop :=
  (∀ a b : F, Rt.feq a b = true ↔ Rt.fcmp a b = some .eq) ∧ (∀ a b : F, Rt.fcmp a b = (Rt.fcmp b a).map Ordering.swap)

/-- Two values the order relates: both integers, both floats or both strings. -/
def SameKind : Value F → Value F → Prop
  | .int _, .int _ => True
  | .float _, .float _ => True
  | .str _, .str _ => True
  | _, _ => False

/-- A number or a string. -/
def Ordered : Value F → Prop
  | .int _ => True
  | .float _ => True
  | .str _ => True
  | _ => False

theorem cmp_swap (hf : FloatsCompare F) (a b : Value F) : a.cmp b = (b.cmp a).map Ordering.swap := by
  cases a with
  | int i =>
    cases b with
    | int j =>
      simp only [Value.cmp, Option.map_some]
      rcases i64Cmp_cases i j with ⟨h, e⟩ | ⟨h, e⟩ | ⟨h, e⟩ <;> rcases i64Cmp_cases j i with ⟨h', e'⟩ | ⟨h', e'⟩ | ⟨h', e'⟩ <;>
        first | (rw [e, e']; rfl) | (exfalso; omega) | (subst h; exfalso; omega) | (subst h'; exfalso; omega)
    | float g => exact hf.2 _ _
    | _ => rfl
  | float f =>
    cases b with
    | int j => exact hf.2 _ _
    | float g => exact hf.2 _ _
    | _ => rfl
  | str x =>
    cases b with
    | str y =>
      simp only [Value.cmp, Option.map_some]
      cases h : strCmp y x with
      | lt => rw [(strCmp_gt x y).2 h]; rfl
      | eq => rw [(strCmp_eq y x).1 h, (strCmp_eq x x).2 rfl]; rfl
      | gt => rw [(strCmp_gt y x).1 h]; rfl
    | _ => rfl
  | _ => cases b <;> rfl

/-- C26: `a < b` iff `b > a`, and `a <= b` iff `b >= a`. -/
theorem c26_mirror (hf : FloatsCompare F) (a b : Value F) : (a.lt b = true ↔ b.gt a = true) ∧ (a.le b = true ↔ b.ge a = true) := by
  have h := cmp_swap hf a b
  unfold Value.lt Value.gt Value.le Value.ge
  rw [h]
  cases b.cmp a with
  | none => simp
  | some o => cases o <;> simp [Ordering.swap]

/-- C26: `a != b` is the negation of `a == b`, in expressions and in asserts. -/
theorem c26_ne (a b : Value F) :
    (∃ op, binaryOp .Eq = some op ∧ op a b = .ok (.bool (a.eq b))) ∧ (∃ op, binaryOp .Ne = some op ∧ op a b = .ok (.bool (!a.eq b))) ∧
    compareValues .Eq a b = some (a.eq b) ∧ compareValues .Ne a b = some (!a.eq b) := ⟨⟨_, rfl, rfl⟩, ⟨_, rfl, rfl⟩, rfl, rfl⟩

/-- C26: at most one of `a < b`, `a == b`, `a > b` holds. -/
theorem c26_exclusive (hf : FloatsCompare F) (a b : Value F) :
    ¬(a.lt b = true ∧ a.gt b = true) ∧ ¬(a.lt b = true ∧ a.eq b = true) ∧ ¬(a.gt b = true ∧ a.eq b = true) := by
  refine ⟨?_, ?_, ?_⟩
  · rintro ⟨h1, h2⟩
    unfold Value.lt at h1; unfold Value.gt at h2
    simp only [beq_iff_eq] at h1 h2
    rw [h1] at h2; cases h2
  all_goals
    rintro ⟨h1, h2⟩
    first | unfold Value.lt at h1 | unfold Value.gt at h1
    simp only [beq_iff_eq] at h1
    cases a <;> cases b <;> simp only [Value.cmp, Value.eq, reduceCtorEq] at h1 h2
    · rw [eq_of_beq h2] at h1
      simp [i64Cmp] at h1
    · rw [(hf.1 _ _).1 h2] at h1; cases h1
    · rw [eq_of_beq h2, (strCmp_eq _ _).2 rfl] at h1; cases h1

/-- C26, the part that holds of "`a == b` implies `a <= b` and `a >= b`": for numbers and strings. -/
theorem c26_eq_le_ge_partial (hf : FloatsCompare F) (a b : Value F) (ha : Ordered a) (h : a.eq b = true) : a.le b = true ∧ a.ge b = true := by
  have : a.cmp b = some .eq := by
    cases a with
    | int i =>
      cases b with
      | int j => have : i = j := by simpa [Value.eq] using h
                 subst this; simp [Value.cmp, i64Cmp]
      | _ => simp [Value.eq] at h
    | float i =>
      cases b with
      | float j => exact (hf.1 _ _).1 h
      | _ => simp [Value.eq] at h
    | str i =>
      cases b with
      | str j => have : i = j := by simpa [Value.eq] using h
                 subst this; simp only [Value.cmp]; rw [(strCmp_eq i i).2 rfl]
      | _ => simp [Value.eq] at h
    | _ => exact absurd ha (by simp [Ordered])
  unfold Value.le Value.ge
  rw [this]
  exact ⟨rfl, rfl⟩

/-- C26 is false on null, booleans, arrays and maps: equal, but neither `<=` nor `>=`. -/
theorem c26_eq_not_le (b : Bool) :
    ((.null : Value F).eq .null = true ∧ (.null : Value F).le .null = false ∧ (.null : Value F).ge .null = false) ∧
    ((.bool b : Value F).eq (.bool b) = true ∧ (.bool b : Value F).le (.bool b) = false) ∧
    ((.arr [.int 1] : Value F).eq (.arr [.int 1]) = true ∧ (.arr [.int 1] : Value F).le (.arr [.int 1]) = false) := by
  refine ⟨⟨rfl, rfl, rfl⟩, ⟨?_, rfl⟩, ⟨rfl, rfl⟩⟩
  cases b <;> rfl

theorem c26_unrelated' (a b : Value F) (h : a.cmp b = none) : a.le b = false ∧ a.ge b = false := by
  unfold Value.le Value.ge
  rw [h]
  exact ⟨rfl, rfl⟩

/-- C26, exactly where the implication holds: equal values are `<=` (and `>=`) each other if and only if they are numbers or strings. -/
theorem c26_exact_partial (hf : FloatsCompare F) (a b : Value F) (h : a.eq b = true) :
    (a.le b = true ↔ Ordered a) ∧ (a.ge b = true ↔ Ordered a) := by
  have key : ∀ a b : Value F, ¬ Ordered a → a.cmp b = none := by
    intro a b ha
    cases a with
    | int i => exact absurd trivial ha
    | float i => exact absurd trivial ha
    | str i => exact absurd trivial ha
    | _ => cases b <;> rfl
  by_cases ha : Ordered a
  · have := c26_eq_le_ge_partial hf a b ha h
    exact ⟨⟨fun _ => ha, fun _ => this.1⟩, ⟨fun _ => ha, fun _ => this.2⟩⟩
  · have hc := c26_unrelated' a b (key a b ha)
    exact ⟨⟨fun h => (by rw [hc.1] at h; cases h), fun h => absurd h ha⟩, ⟨fun h => (by rw [hc.2] at h; cases h), fun h => absurd h ha⟩⟩

/-- C26: for values of the same kind, `<=` and `>=` together give `==`. -/
theorem c26_le_ge_eq (hf : FloatsCompare F) (a b : Value F) (hk : SameKind a b) (h1 : a.le b = true) (h2 : a.ge b = true) : a.eq b = true := by
  have : a.cmp b = some .eq := by
    unfold Value.le at h1; unfold Value.ge at h2
    cases h : a.cmp b with
    | none => rw [h] at h1; cases h1
    | some o => rw [h] at h1 h2; cases o with
      | lt => cases h2
      | gt => cases h1
      | eq => rfl
  cases a <;> cases b <;> first | (exact (hk : False).elim; done) | skip
  · rename_i i j
    simp only [Value.cmp, Option.some.injEq] at this
    rcases i64Cmp_cases i j with ⟨h, e⟩ | ⟨h, e⟩ | ⟨h, e⟩
    · rw [this] at e; cases e
    · subst h; simp [Value.eq]
    · rw [this] at e; cases e
  · exact (hf.1 _ _).2 this
  · simp only [Value.cmp, Option.some.injEq] at this
    rw [(strCmp_eq _ _).1 this]
    simp [Value.eq]

/-- C26: an integer never equals a float, even when it is both `<=` and `>=` it. -/
theorem c26_mixed_never_equal (i : Int64) (f : F) : (.int i : Value F).eq (.float f) = false ∧
    (Rt.fcmp (Rt.fofInt i) f = some .eq → (.int i : Value F).le (.float f) = true ∧ (.int i : Value F).ge (.float f) = true) := by
  refine ⟨rfl, fun h => ?_⟩
  have hc : (.int i : Value F).cmp (.float f) = some .eq := h
  unfold Value.le Value.ge
  rw [hc]
  exact ⟨rfl, rfl⟩

/-- C26: integers are compared numerically. -/
theorem c26_int (i j : Int64) : ((.int i : Value F).lt (.int j) = true ↔ i.toInt < j.toInt) ∧ ((.int i : Value F).gt (.int j) = true ↔ j.toInt < i.toInt) ∧
    ((.int i : Value F).le (.int j) = true ↔ i.toInt ≤ j.toInt) ∧ ((.int i : Value F).ge (.int j) = true ↔ j.toInt ≤ i.toInt) ∧
    ((.int i : Value F).eq (.int j) = true ↔ i.toInt = j.toInt) := by
  have hc : (.int i : Value F).cmp (.int j) = some (i64Cmp i j) := rfl
  have he : (.int i : Value F).eq (.int j) = (i == j) := rfl
  have he' : (i == j) = true ↔ i.toInt = j.toInt := by rw [beq_iff_eq, Int64.toInt_inj]
  unfold Value.lt Value.gt Value.le Value.ge
  rw [hc, he, he']
  rcases i64Cmp_cases i j with ⟨h, e⟩ | ⟨h, e⟩ | ⟨h, e⟩
  · rw [e]; simp; omega
  · subst h; rw [e]; simp
  · rw [e]; simp; omega

/-- C26: strings are compared in code point order. -/
theorem c26_str (a b : Str) : ((.str a : Value F).lt (.str b) = true ↔ TextLt a b) ∧ ((.str a : Value F).gt (.str b) = true ↔ TextLt b a) ∧
    ((.str a : Value F).le (.str b) = true ↔ TextLt a b ∨ a = b) ∧ ((.str a : Value F).ge (.str b) = true ↔ TextLt b a ∨ a = b) ∧
    ((.str a : Value F).eq (.str b) = true ↔ a = b) := by
  have hc : (.str a : Value F).cmp (.str b) = some (strCmp a b) := rfl
  have he : (.str a : Value F).eq (.str b) = (a == b) := rfl
  unfold Value.lt Value.gt Value.le Value.ge
  rw [hc, he]
  simp only [Bool.or_eq_true, beq_iff_eq, Option.some.injEq]
  rw [strCmp_gt, strCmp_lt, strCmp_lt, strCmp_eq]
  simp

/-- C26: values of unrelated kinds are neither `<`, `<=`, `>` nor `>=`, and not equal. -/
theorem c26_unrelated (a b : Value F) (h : a.cmp b = none) : a.lt b = false ∧ a.le b = false ∧ a.gt b = false ∧ a.ge b = false := by
  unfold Value.lt Value.gt Value.le Value.ge
  rw [h]
  exact ⟨rfl, rfl, rfl, rfl⟩

/-- C26: which kinds are unrelated: everything but two numbers or two strings. -/
theorem c26_unrelated_kinds (a b : Value F) :
    (¬((∃ x y, a = .str x ∧ b = .str y) ∨ (((∃ i, a = .int i) ∨ (∃ f, a = .float f)) ∧ ((∃ i, b = .int i) ∨ (∃ f, b = .float f))))) → a.cmp b = none := by
  intro h
  cases a <;> cases b <;> first | rfl | exact absurd (Or.inl ⟨_, _, rfl, rfl⟩) h | exact absurd (Or.inr ⟨Or.inl ⟨_, rfl⟩, Or.inl ⟨_, rfl⟩⟩) h |
    exact absurd (Or.inr ⟨Or.inl ⟨_, rfl⟩, Or.inr ⟨_, rfl⟩⟩) h | exact absurd (Or.inr ⟨Or.inr ⟨_, rfl⟩, Or.inl ⟨_, rfl⟩⟩) h |
    exact absurd (Or.inr ⟨Or.inr ⟨_, rfl⟩, Or.inr ⟨_, rfl⟩⟩) h

example : TextLt c!"ab" c!"b" ∧ TextLt c!"a" c!"ab" := ⟨.head (by decide), .tail .nil⟩

/-! ## C29 -/

/-- Bytes of a character in UTF-8 (RFC 3629). -/
def utf8Width (c : Char) : Nat := if c.toNat < 0x80 then 1 else if c.toNat < 0x800 then 2 else if c.toNat < 0x10000 then 3 else 4

theorem utf8Size_width (c : Char) : c.utf8Size = utf8Width c := by
  unfold Char.utf8Size utf8Width Char.toNat
  simp only [UInt32.le_iff_toNat_le]
  have e1 : (UInt32.ofNatLT 127 (by decide)).toNat = 127 := rfl
  have e2 : (UInt32.ofNatLT 2047 (by decide)).toNat = 2047 := rfl
  have e3 : (UInt32.ofNatLT 65535 (by decide)).toNat = 65535 := rfl
  rw [e1, e2, e3]
  repeat' split
  all_goals omega

theorem utf8_length (s : Str) : (utf8 s).length = (s.map utf8Width).sum := by
  induction s with
  | nil => rfl
  | cons c s ih =>
    simp only [utf8, List.flatMap_cons, List.length_append, List.map_cons, List.sum_cons] at ih ⊢
    rw [ih, String.length_utf8EncodeChar, utf8Size_width]

/-- C29: `length` of a string is its length in UTF-8 bytes (strings are shorter than 2^63 bytes). -/
theorem c29_length_str (s : Str) (h : (s.map utf8Width).sum < 2 ^ 63) :
    ∃ i : Int64, nativeLength [.str s] = (.ok (.int i) : Res (Value F)) ∧ i.toInt = (s.map utf8Width).sum := by
  refine ⟨_, rfl, ?_⟩
  rw [utf8_length]
  have : Int64.ofNat (s.map utf8Width).sum = Int64.ofInt ((s.map utf8Width).sum : Nat) := Int64.ofInt_eq_ofNat.symm
  rw [this, toInt_ofInt_fits ⟨by omega, by omega⟩]

/-- C29: `length` of an array is its number of items. -/
theorem c29_length_arr (items : List (Value F)) (h : items.length < 2 ^ 63) :
    ∃ i : Int64, nativeLength [.arr items] = .ok (.int i) ∧ i.toInt = items.length := by
  refine ⟨_, rfl, ?_⟩
  have : Int64.ofNat items.length = Int64.ofInt (items.length : Nat) := Int64.ofInt_eq_ofNat.symm
  rw [this, toInt_ofInt_fits ⟨by omega, by omega⟩]

/-- C29: `length` of a map is the number of its keys: there is a list of distinct keys of that length which are exactly the keys present. -/
theorem c29_length_map (m : List (Str × Value F)) (hn : KeysNodup m) (h : m.length < 2 ^ 63) :
    ∃ (i : Int64) (keys : List Str), nativeLength [.map m] = .ok (.int i) ∧ i.toInt = keys.length ∧ keys.Nodup ∧ (∀ k, k ∈ keys ↔ ∃ v, amGet k m = some v) := by
  refine ⟨_, m.map Prod.fst, rfl, ?_, hn, fun k => ?_⟩
  · have : Int64.ofNat m.length = Int64.ofInt (m.length : Nat) := Int64.ofInt_eq_ofNat.symm
    rw [this, toInt_ofInt_fits ⟨by omega, by omega⟩]
    simp
  · cases hg : amGet k m with
    | none => simp [amGet_none.1 hg]
    | some v => simp only [Option.some.injEq, exists_eq', iff_true]; exact List.mem_map.2 ⟨_, amGet_mem hg, rfl⟩

/-- C29: `length` is an error on any other value and on any other number of arguments. -/
theorem c29_length_err (args : List (Value F)) (h : ¬∃ v, args = [v] ∧ ((∃ s, v = .str s) ∨ (∃ l, v = .arr l) ∨ (∃ m, v = .map m))) :
    ∃ msg, nativeLength args = .err msg := by
  cases args with
  | nil => exact ⟨_, rfl⟩
  | cons v args =>
    cases args with
    | cons w args => cases v <;> exact ⟨_, rfl⟩
    | nil =>
      cases v with
      | str s => exact absurd ⟨_, rfl, Or.inl ⟨_, rfl⟩⟩ h
      | arr s => exact absurd ⟨_, rfl, Or.inr (Or.inl ⟨_, rfl⟩)⟩ h
      | map s => exact absurd ⟨_, rfl, Or.inr (Or.inr ⟨_, rfl⟩)⟩ h
      | _ => exact ⟨_, rfl⟩

/-- C29: `append(a, v1..vn)` returns the items of `a` followed by the values; on anything but an array it fails. -/
theorem c29_append (items args : List (Value F)) : nativeAppend (.arr items :: args) = .ok (.arr (items ++ args)) := rfl

theorem c29_append_err (args : List (Value F)) (h : ∀ items rest, args ≠ .arr items :: rest) : ∃ msg, nativeAppend args = .err msg := by
  cases args with
  | nil => exact ⟨_, rfl⟩
  | cons v args =>
    cases v with
    | arr items => exact absurd rfl (h items args)
    | _ => exact ⟨_, rfl⟩

/-- C29: calling `append` or `length` changes nothing at all — in particular not the variable the array came from — when no request has
that name. -/
theorem c29_pure (net : Net) (args : List (Value F)) (s : St F) :
    (s.ctx.request c!"append" = none → callAt net 1 c!"append" args s = (nativeAppend args, s)) ∧
    (s.ctx.request c!"length" = none → callAt net 1 c!"length" args s = (nativeLength args, s)) := by
  constructor <;> intro h <;> simp only [callAt, h] <;> rfl

example : nativeLength ([.str c!"aé€😀"] : List (Value F)) = .ok (.int 10) := by
  show Res.ok (Value.int (Int64.ofNat (utf8 c!"aé€😀").length)) = _
  rw [utf8_length]; rfl
example (net : Net) (s : St F) (h : s.ctx.request c!"append" = none) :
    eval net (.call c!"append" [.arr [.int 1], .int 2, .int 3]) s = (.ok (.arr [.int 1, .int 2, .int 3]), s) :=
  (c29_pure net _ s).1 h

end Am
