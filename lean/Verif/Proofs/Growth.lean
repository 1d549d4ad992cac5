import Verif.Spec.Growth
import Verif.Proofs.EvalCalls
import Verif.Proofs.FloatShow
/-! # How large values get -/
set_option linter.unusedSimpArgs false
set_option linter.unusedSectionVars false
namespace Am
open Spec
variable {F : Type} [Rt F]

theorem bulk_pos (v : Value F) : 1 ≤ bulk v := by
  cases v <;> simp only [bulk] <;> omega

theorem bulkAll_append (a b : List (Value F)) : bulkAll (a ++ b) = bulkAll a + bulkAll b := by
  induction a with
  | nil => simp only [List.nil_append, bulkAll, Nat.zero_add]
  | cons v l ih => simp only [List.cons_append, bulkAll, ih]; omega

theorem bulkAll_reverse (a : List (Value F)) : bulkAll a.reverse = bulkAll a := by
  induction a with
  | nil => rfl
  | cons v l ih => rw [List.reverse_cons, bulkAll_append, ih]; simp only [bulkAll]; omega

theorem bulkAll_get {l : List (Value F)} {n : Nat} {v : Value F} (h : l[n]? = some v) : bulk v ≤ bulkAll l := by
  induction l generalizing n with
  | nil => exact nomatch h
  | cons w l ih =>
    cases n with
    | zero => cases h; simp only [bulkAll]; omega
    | succ n => have := ih (n := n) h; simp only [bulkAll]; omega

theorem bulkPairs_get {k : Str} {v : Value F} : ∀ {l : List (Str × Value F)}, amGet k l = some v → bulk v ≤ bulkPairs l
  | [], h => nomatch h
  | (j, w) :: l, h => by
    simp only [amGet] at h
    simp only [bulkPairs]
    split at h
    · cases h; omega
    · have := bulkPairs_get h; omega

theorem bulkPairs_insert (k : Str) (v : Value F) : ∀ l : List (Str × Value F), bulkPairs (amInsert k v l) ≤ bulkPairs l + (1 + k.length + bulk v)
  | [] => by simp only [amInsert, bulkPairs]; omega
  | (j, w) :: l => by
    simp only [amInsert]
    split
    · rename_i h
      simp only [bulkPairs]
      subst h
      omega
    · have := bulkPairs_insert k v l
      simp only [bulkPairs]
      omega

/-! ## Texts -/

theorem natStr_short {n k : Nat} (hk : 1 ≤ k) (h : n < 10 ^ k) : (natStr n).length ≤ k := by
  by_cases hn : n = 0
  · subst hn; exact hk
  · obtain ⟨_, h2, h3⟩ := F64.natStr_bounds n
    have h2 := h2 hn
    have : (natStr n).length - 1 < k := (Nat.pow_lt_pow_iff_right (a := 10) (by decide)).1 (Nat.lt_of_le_of_lt h2 h)
    omega

theorem intStr_short (i : Int64) : (intStr i.toInt).length ≤ 20 := by
  have h1 := Int64.le_toInt i
  have h2 := Int64.toInt_lt i
  have : (natStr i.toInt.natAbs).length ≤ 19 := natStr_short (by decide) (by omega)
  unfold intStr
  split
  · simp only [List.length_cons]; omega
  · omega

theorem joinStr_short (sep : Str) (l : List Str) : (joinStr sep l).length ≤ (l.map fun x => x.length + sep.length).sum := by
  induction l with
  | nil => exact Nat.le_refl 0
  | cons x l ih =>
    cases l with
    | nil => simp only [joinStr, List.map_cons, List.map_nil, List.sum_cons, List.sum_nil]; omega
    | cons y l =>
      simp only [List.map_cons, List.sum_cons] at ih
      simp only [joinStr, List.map_cons, List.sum_cons, List.length_append]
      omega

theorem perm_sum {l l' : List Nat} (h : l.Perm l') : l.sum = l'.sum := by
  induction h with
  | nil => rfl
  | cons x _ ih => simp only [List.sum_cons, ih]
  | swap x y l => simp only [List.sum_cons]; omega
  | trans _ _ h1 h2 => rw [h1, h2]

theorem hexLow_short (n : Nat) : (hexLow n).length ≤ 2 := by
  simp only [hexLow]; split <;> simp

theorem escapeChar_short {b : Nat} (h : Tame F b) (c : Char) : (escapeChar (F := F) c).length ≤ b + 10 := by
  have h1 := hexLow_short c.toNat
  have h2 := h.escape c
  unfold escapeChar
  repeat' split
  all_goals first
    | (simp only [List.length_append, List.length_cons, List.length_nil]; omega)
    | omega

theorem debugStr_short {b : Nat} (h : Tame F b) (s : Str) : (debugStr F s).length ≤ 2 + (b + 10) * s.length := by
  have : (s.flatMap (escapeChar (F := F))).length ≤ (b + 10) * s.length := by
    induction s with
    | nil => exact Nat.zero_le _
    | cons c s ih =>
      have := escapeChar_short h c
      simp only [List.flatMap_cons, List.length_append, List.length_cons, Nat.mul_add, Nat.mul_one]
      omega
  simp only [debugStr, List.length_append, List.length_cons, List.length_nil]
  omega

theorem boolStr_short (b : Bool) : (boolStr b).length ≤ 5 := by cases b <;> decide

theorem scale_str (b n : Nat) : (b + 10) * n ≤ (b + 40) * n := Nat.mul_le_mul_right n (by omega)

theorem pairs_sum (l : List (Str × Str)) : ((l.map fun p => p.1 ++ c!": " ++ p.2).map fun x => x.length + (c!", ").length).sum =
    (l.map fun p => p.1.length + p.2.length + 4).sum := by
  rw [List.map_map]
  congr 1
  apply List.map_congr_left
  intro p _
  simp only [Function.comp_apply, List.length_append, List.length_cons, List.length_nil]
  omega

mutual
theorem debug_short {b : Nat} (h : Tame F b) : ∀ v : Value F, v.debug.length + 2 ≤ (b + 40) * bulk v
  | .null => by simp only [Value.debug, bulk, List.length_cons, List.length_nil]; omega
  | .int i => by
    have := intStr_short i
    simp only [Value.debug, bulk, List.length_append, List.length_cons, List.length_nil]; omega
  | .float f => by
    have := h.debug f
    simp only [Value.debug, bulk, List.length_append, List.length_cons, List.length_nil]; omega
  | .bool x => by
    have := boolStr_short x
    simp only [Value.debug, bulk, List.length_append, List.length_cons, List.length_nil]; omega
  | .str s => by
    have h1 := debugStr_short h s
    have h2 := scale_str b s.length
    simp only [Value.debug, bulk, List.length_append, List.length_cons, List.length_nil, Nat.mul_add, Nat.mul_one]
    omega
  | .arr items => by
    have h1 := debugList_short h items
    have h2 := joinStr_short c!", " (Value.debugList items)
    simp only [Value.debug, bulk, List.length_append, List.length_cons, List.length_nil, Nat.mul_add, Nat.mul_one] at *
    omega
  | .map pairs => by
    have h1 := debugPairs_short h pairs
    have h2 := joinStr_short c!", " ((Rt.order F (Value.debugPairs pairs)).map fun p => p.1 ++ c!": " ++ p.2)
    rw [pairs_sum, perm_sum ((h.order (Value.debugPairs pairs)).map _)] at h2
    simp only [Value.debug, bulk, List.length_append, List.length_cons, List.length_nil, Nat.mul_add, Nat.mul_one] at *
    omega
termination_by structural v => v
theorem debugList_short {b : Nat} (h : Tame F b) : ∀ l : List (Value F), ((Value.debugList l).map fun x => x.length + (c!", ").length).sum ≤ (b + 40) * bulkAll l
  | [] => Nat.zero_le _
  | v :: l => by
    have h1 := debug_short h v
    have h2 := debugList_short h l
    simp only [Value.debugList, bulkAll, List.map_cons, List.sum_cons, Nat.mul_add, List.length_cons, List.length_nil] at *
    omega
termination_by structural l => l
theorem debugPairs_short {b : Nat} (h : Tame F b) : ∀ l : List (Str × Value F), ((Value.debugPairs l).map fun p => p.1.length + p.2.length + 4).sum ≤ (b + 40) * bulkPairs l
  | [] => Nat.zero_le _
  | (k, v) :: l => by
    have h1 := debug_short h v
    have h2 := debugPairs_short h l
    have h3 := debugStr_short h k
    have h4 := scale_str b k.length
    simp only [Value.debugPairs, bulkPairs, List.map_cons, List.sum_cons, Nat.mul_add, Nat.mul_one] at *
    omega
termination_by structural l => l
end

theorem display_short {b : Nat} (h : Tame F b) (v : Value F) : v.display.length ≤ (b + 40) * bulk v := by
  cases v with
  | null => simp only [Value.display, bulk, List.length_cons, List.length_nil]; omega
  | int i => have := intStr_short i; simp only [Value.display, bulk]; omega
  | float f => have := h.disp f; simp only [Value.display, bulk]; omega
  | bool x => have := boolStr_short x; simp only [Value.display, bulk]; omega
  | str s =>
    simp only [Value.display, bulk]
    calc s.length ≤ 1 * (1 + s.length) := by omega
      _ ≤ _ := Nat.mul_le_mul_right _ (by omega)
  | arr items =>
    have h1 := debugList_short h items
    have h2 := joinStr_short c!", " (Value.debugList items)
    simp only [Value.display, bulk, List.length_append, List.length_cons, List.length_nil, Nat.mul_add, Nat.mul_one] at *
    omega
  | map pairs =>
    have h1 := debugPairs_short h pairs
    have h2 := joinStr_short c!", " ((Rt.order F (Value.debugPairs pairs)).map fun p => p.1 ++ c!": " ++ p.2)
    rw [pairs_sum, perm_sum ((h.order (Value.debugPairs pairs)).map _)] at h2
    simp only [Value.display, bulk, List.length_append, List.length_cons, List.length_nil, Nat.mul_add, Nat.mul_one] at *
    omega

theorem replaceAll_short : ∀ (l : List ((Nat × Nat) × Str)) (s : Str), (∀ p ∈ l, p.1.1 ≤ p.1.2) → (replaceAll s l).length ≤ s.length + (l.map fun p => p.2.length).sum
  | [], s, _ => by simp only [replaceAll, List.map_nil, List.sum_nil]; omega
  | ((a, b), w) :: l, s, h => by
    have h1 := replaceAll_short l (replaceRange s a b w) (fun p hp => h p (List.mem_cons_of_mem _ hp))
    have h2 := h ((a, b), w) List.mem_cons_self
    dsimp only at h2
    simp only [replaceAll, List.map_cons, List.sum_cons]
    have : (replaceRange s a b w).length ≤ s.length + w.length := by
      simp only [replaceRange, List.length_append, List.length_take, List.length_drop]
      omega
    omega

theorem findAll_ranges : ∀ (n pos : Nat) (s : Str), ∀ m ∈ findAll n pos s, m.2.1 ≤ m.2.2
  | 0, _, _, _, h => nomatch h
  | n + 1, _, [], _, h => nomatch h
  | n + 1, pos, c :: cs, m, h => by
    simp only [findAll] at h
    split at h
    · rcases List.mem_cons.1 h with h | h
      · subst h; dsimp only; omega
      · exact findAll_ranges n _ _ m h
    · exact findAll_ranges n _ _ m h

theorem zip_sum (b : Nat) (h : Tame F b) : ∀ (r : List (Nat × Nat)) (vs : List (Value F)),
    ((r.zip (vs.map Value.display)).map fun p => p.2.length).sum ≤ (b + 40) * bulkAll vs
  | [], _ => Nat.zero_le _
  | _ :: _, [] => Nat.zero_le _
  | _ :: r, v :: vs => by
    have h1 := zip_sum b h r vs
    have h2 := display_short h v
    simp only [List.map_cons, List.zip_cons_cons, List.sum_cons, bulkAll, Nat.mul_add]
    omega

/-! ## Operators and native functions -/

theorem nativeFormat_bulk {b : Nat} (h : Tame F b) {vs : List (Value F)} {v : Value F} (hv : nativeFormat vs = .ok v) : bulk v ≤ (b + 40) * bulkAll vs := by
  unfold nativeFormat at hv
  split at hv
  · rename_i s args
    dsimp only at hv
    split at hv
    · cases hv
    · cases hv
      have h1 := replaceAll_short (((findTemplates s).map (·.2)).reverse.zip (args.reverse.map Value.display)) s (by
        intro p hp
        have := List.of_mem_zip hp |>.1
        simp only [List.mem_reverse, List.mem_map] at this
        obtain ⟨m, hm, he⟩ := this
        rw [← he]
        exact findAll_ranges _ _ _ m hm)
      have h2 := zip_sum b h ((findTemplates s).map (·.2)).reverse args.reverse
      rw [bulkAll_reverse] at h2
      simp only [bulk, bulkAll, Nat.mul_add, Nat.mul_one] at *
      have : 1 * s.length ≤ (b + 40) * s.length := Nat.mul_le_mul_right _ (by omega)
      omega
  · cases hv
  · cases hv

theorem bulkAll_pos {v : Value F} {l : List (Value F)} : 1 ≤ bulkAll (v :: l) := by
  have := bulk_pos v
  simp only [bulkAll]; omega

theorem nativeLength_bulk {vs : List (Value F)} {v : Value F} (hv : nativeLength vs = .ok v) : bulk v ≤ bulkAll vs := by
  unfold nativeLength at hv
  split at hv <;> first | cases hv; exact bulkAll_pos | cases hv

theorem nativeAppend_bulk {vs : List (Value F)} {v : Value F} (hv : nativeAppend vs = .ok v) : bulk v ≤ bulkAll vs := by
  unfold nativeAppend at hv
  split at hv
  · cases hv; simp only [bulk, bulkAll, bulkAll_append]; omega
  · cases hv
  · cases hv

theorem index_bulk {a i v : Value F} (h : indexValue a i = .ok v) : bulk v ≤ bulk a := by
  unfold indexValue at h
  split at h
  · cases h
    rename_i items i
    cases hg : items[i.toUInt64.toNat]? with
    | none => simp only [Option.getD_none, bulk]; omega
    | some w => have := bulkAll_get hg; simp only [Option.getD_some, bulk]; omega
  · cases h
    rename_i pairs
    cases hg : amGet i.display pairs with
    | none => simp only [Option.getD_none, bulk]; omega
    | some w => have := bulkPairs_get hg; simp only [Option.getD_some, bulk]; omega
  · cases h

theorem field_bulk {a v : Value F} {n : Str} (h : fieldValue a n = .ok v) : bulk v ≤ bulk a := by
  unfold fieldValue at h
  split at h
  · cases h
    rename_i pairs
    cases hg : amGet n pairs with
    | none => simp only [Option.getD_none, bulk]; omega
    | some w => have := bulkPairs_get hg; simp only [Option.getD_some, bulk]; omega
  · cases h

theorem bind_int {x : Res Int64} {v : Value F} (h : (x >>= fun i => pure (Value.int i)) = .ok v) : bulk v = 1 := by
  cases x <;> cases h; rfl

theorem unary_bulk {t : Token} {a v : Value F} (h : unaryValue t a = .ok v) : bulk v = 1 := by
  unfold unaryValue at h
  split at h <;> first
    | (cases h; rfl)
    | exact bind_int h
    | cases h

theorem checked_bulk {x : Int} {v : Value F} (h : (checked F x >>= fun i => pure (Value.int i)) = .ok v) : bulk v = 1 := bind_int h

theorem binary_bulk {k : Kind} {op : Value F → Value F → Res (Value F)} (ho : binaryOp k = some op) {l r v : Value F} (h : op l r = .ok v) :
    bulk v ≤ bulk l + bulk r := by
  have hl := bulk_pos l
  have one : bulk v = 1 → bulk v ≤ bulk l + bulk r := fun h => by omega
  cases k
  case Add =>
    cases ho
    cases l <;> cases r <;> simp only [Value.add, mismatch] at h <;> first
      | cases h; simp only [bulk, List.length_append]; omega
      | exact one (bind_int h)
      | cases h
  all_goals cases ho
  all_goals try (cases h; exact one rfl)
  all_goals
    cases l <;> cases r <;>
    simp only [Value.sub, Value.mul, Value.div, Value.rem, Value.bitxor, Value.bitor, Value.bitand, Value.shl, Value.shr, mismatch] at h <;> first
      | exact one (bind_int h)
      | (cases h; exact one rfl)
      | (cases hs : shiftAmount F _ <;> rw [hs] at h <;> cases h; exact one rfl)
      | cases h

end Am
