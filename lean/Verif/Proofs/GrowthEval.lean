import Verif.Proofs.Growth
/-! # How large values get while a script is evaluated -/
set_option linter.unusedSimpArgs false
set_option linter.unusedSectionVars false
namespace Am
open Spec
variable {F : Type} [Rt F]

/-- The requests are `rq`, and the variables with the result take at most `n`. -/
def Fits {α : Type} (rq : List (Str × (Str × List (Expr F)))) (m : α → Nat) (n : Nat) (x : Res α × St F) : Prop :=
  x.2.ctx.requests = rq ∧ bulkPairs x.2.ctx.inner + resRoom m x.1 ≤ n

theorem Fits.mono {α : Type} {rq : List (Str × (Str × List (Expr F)))} {m : α → Nat} {n k : Nat} {x : Res α × St F} (h : Fits rq m n x) (hk : n ≤ k) :
    Fits rq m k x := ⟨h.1, Nat.le_trans h.2 hk⟩

theorem Fits.bind {α β : Type} {rq : List (Str × (Str × List (Expr F)))} {m : α → Nat} {m' : β → Nat} {n k : Nat} {x : M F α} {f : α → M F β} {s : St F}
    (h : Fits rq m n (x s)) (hk : n ≤ k) (hf : ∀ a s', s'.ctx.requests = rq → bulkPairs s'.ctx.inner + m a ≤ n → Fits rq m' k (f a s')) :
    Fits rq m' k ((x >>= f) s) := by
  match hs : x s with
  | (.ok a, s') =>
    rw [hs] at h
    rw [M.bind_ok hs]
    exact hf a s' h.1 h.2
  | (.err e, s') =>
    rw [hs] at h
    rw [M.bind_err hs]
    exact ⟨h.1, Nat.le_trans h.2 hk⟩
  | (.panic, s') =>
    rw [hs] at h
    rw [M.bind_panic hs]
    exact ⟨h.1, Nat.le_trans h.2 hk⟩
  | (.hang, s') =>
    rw [hs] at h
    rw [M.bind_hang hs]
    exact ⟨h.1, Nat.le_trans h.2 hk⟩

theorem Fits.lift {α : Type} {rq : List (Str × (Str × List (Expr F)))} {m : α → Nat} {n : Nat} {r : Res α} {s : St F} (hq : s.ctx.requests = rq)
    (h1 : bulkPairs s.ctx.inner ≤ n) (h : ∀ a, r = .ok a → bulkPairs s.ctx.inner + m a ≤ n) : Fits rq m n (M.lift r s) := by
  cases r with
  | ok a => exact ⟨hq, h a rfl⟩
  | err e => exact ⟨hq, h1⟩
  | panic => exact ⟨hq, h1⟩
  | hang => exact ⟨hq, h1⟩

/-- Calls cost a factor of `K` for the call and one for every node of the asserts. -/
def CallFits (K a M0 : Nat) (rq : List (Str × (Str × List (Expr F)))) (call : Call F) : Prop :=
  ∀ name vs s n, M0 ≤ n → s.ctx.requests = rq → bulkPairs s.ctx.inner + bulkAll vs ≤ n → Fits rq bulk (K ^ (1 + a) * n) (call name vs s)

theorem grow_le {K : Nat} (hK : 1 ≤ K) (i n : Nat) : n ≤ K ^ i * n := by
  have : 1 ≤ K ^ i := Nat.one_le_pow _ _ hK
  calc n = 1 * n := (Nat.one_mul n).symm
    _ ≤ _ := Nat.mul_le_mul_right n this

theorem grow_add (K i j n : Nat) : K ^ (i + j) * n = K ^ j * (K ^ i * n) := by
  rw [Nat.pow_add, Nat.mul_comm (K ^ i), Nat.mul_assoc]

theorem grow_one (K j n : Nat) : K ^ (1 + j) * n = K * (K ^ j * n) := by
  rw [Nat.pow_add, Nat.pow_one, Nat.mul_assoc]

theorem grow_mono {K : Nat} (hK : 1 ≤ K) {i j : Nat} (h : i ≤ j) (n : Nat) : K ^ i * n ≤ K ^ j * n :=
  Nat.mul_le_mul_right n (Nat.pow_le_pow_right hK h)

theorem times_le {K c : Nat} (h : c ≤ K) (n : Nat) : c * n ≤ K * n := Nat.mul_le_mul_right n h

theorem Fits.orElse {rq : List (Str × (Str × List (Expr F)))} {n : Nat} {x : M F (Value F)} {s : St F} (h : Fits rq bulk n (x s)) : Fits rq (fun _ => 0) n (x.orElse .null s) := by
  unfold M.orElse
  match hs : x s with
  | (.ok v, s') => rw [hs] at h; exact ⟨h.1, Nat.le_trans (Nat.le_add_right _ _) h.2⟩
  | (.err e, s') => rw [hs] at h; exact ⟨h.1, Nat.le_trans (Nat.le_add_right _ _) h.2⟩
  | (.panic, s') => rw [hs] at h; exact ⟨h.1, Nat.le_trans (Nat.le_add_right _ _) h.2⟩
  | (.hang, s') => rw [hs] at h; exact ⟨h.1, Nat.le_trans (Nat.le_add_right _ _) h.2⟩

section
variable {b K a M0 : Nat} (hT : Tame F b) (hK : b + 50 ≤ K) {rq : List (Str × (Str × List (Expr F)))} {call : Call F} (hc : CallFits K a M0 rq call)

include hT hK hc

mutual
theorem evalExpr_fits : ∀ (e : Expr F) (s : St F) (n : Nat), letters e < M0 → M0 ≤ n → s.ctx.requests = rq → bulkPairs s.ctx.inner ≤ n →
    Fits rq bulk (K ^ nodes a e * n) (evalExpr call e s)
  | .int i, s, n, hl, hn, hq, hs => by
    have := times_le (K := K) (c := 2) (by omega) n
    exact ⟨hq, by simp only [evalExpr, M.pure, resRoom, bulk, nodes, Nat.pow_one]; omega⟩
  | .float i, s, n, hl, hn, hq, hs => by
    have := times_le (K := K) (c := 2) (by omega) n
    exact ⟨hq, by simp only [evalExpr, M.pure, resRoom, bulk, nodes, Nat.pow_one]; omega⟩
  | .bool i, s, n, hl, hn, hq, hs => by
    have := times_le (K := K) (c := 2) (by omega) n
    exact ⟨hq, by simp only [evalExpr, M.pure, resRoom, bulk, nodes, Nat.pow_one]; omega⟩
  | .str t, s, n, hl, hn, hq, hs => by
    have := times_le (K := K) (c := 2) (by omega) n
    simp only [letters] at hl
    exact ⟨hq, by simp only [evalExpr, M.pure, resRoom, bulk, nodes, Nat.pow_one]; omega⟩
  | .arr items, s, n, hl, hn, hq, hs => by
    simp only [letters] at hl
    have h1 := evalList_fits items s n hl hn hq hs
    have := times_le (K := K) (c := 2) (by omega) (K ^ nodesAll a items * n)
    simp only [evalExpr, nodes, grow_one]
    refine h1.bind (by omega) fun vs s' hq' hs' => ⟨hq', ?_⟩
    have := grow_le (K := K) (by omega) (nodesAll a items) n
    show bulkPairs s'.ctx.inner + bulk (.arr vs) ≤ _
    simp only [bulk]
    omega
  | .map pairs, s, n, hl, hn, hq, hs => by
    simp only [letters] at hl
    have h1 := evalPairs_fits pairs [] s n hl hn hq (by simp only [bulkPairs]; omega)
    have := times_le (K := K) (c := 2) (by omega) (K ^ nodesPairs a pairs * n)
    simp only [evalExpr, nodes, grow_one]
    refine h1.bind (by omega) fun vs s' hq' hs' => ⟨hq', ?_⟩
    have := grow_le (K := K) (by omega) (nodesPairs a pairs) n
    show bulkPairs s'.ctx.inner + bulk (.map vs) ≤ _
    simp only [bulk]
    omega
  | .index l i, s, n, hl, hn, hq, hs => by
    simp only [letters] at hl
    have h1 := evalExpr_fits l s n (by omega) hn hq hs
    have g1 := grow_le (K := K) (by omega) (nodes a l) n
    have g2 := grow_le (K := K) (by omega) (nodes a i) (K ^ nodes a l * n)
    have g3 := times_le (K := K) (c := 2) (by omega) (K ^ nodes a i * (K ^ nodes a l * n))
    simp only [evalExpr, nodes]
    rw [show 1 + nodes a l + nodes a i = 1 + (nodes a l + nodes a i) by omega, grow_one, grow_add]
    refine h1.bind (by omega) fun x s1 hq1 hs1 => ?_
    refine (evalExpr_fits i s1 (K ^ nodes a l * n) (by omega) (by omega) hq1 (by omega)).bind (by omega) fun y s2 hq2 hs2 => ?_
    refine Fits.lift hq2 (by omega) fun v hv => ?_
    have := index_bulk hv
    omega
  | .field l f, s, n, hl, hn, hq, hs => by
    simp only [letters] at hl
    have h1 := evalExpr_fits l s n (by omega) hn hq hs
    have g3 := times_le (K := K) (c := 2) (by omega) (K ^ nodes a l * n)
    simp only [evalExpr, nodes, grow_one]
    refine h1.bind (by omega) fun x s1 hq1 hs1 => ?_
    refine Fits.lift hq1 (by omega) fun v hv => ?_
    have := field_bulk hv
    omega
  | .ident x, s, n, hl, hn, hq, hs => by
    have := times_le (K := K) (c := 2) (by omega) n
    simp only [evalExpr, nodes, Nat.pow_one]
    cases hg : s.ctx.get x with
    | none => exact ⟨hq, by simp only [resRoom]; omega⟩
    | some v =>
      have := bulkPairs_get hg
      exact ⟨hq, by simp only [resRoom]; omega⟩
  | .letE x e, s, n, hl, hn, hq, hs => by
    simp only [letters] at hl
    have h1 := evalExpr_fits e s n (by omega) hn hq hs
    have g1 := grow_le (K := K) (by omega) (nodes a e) n
    have g3 := times_le (K := K) (c := 3) (by omega) (K ^ nodes a e * n)
    simp only [evalExpr, nodes, grow_one]
    refine h1.bind (by omega) fun v s1 hq1 hs1 => ?_
    rw [M.bind_ok (M.modify_run _ _)]
    have := bulkPairs_insert x v s1.ctx.inner
    refine ⟨hq1, ?_⟩
    show bulkPairs (amInsert x v s1.ctx.inner) + bulk v ≤ _
    omega
  | .unary t r, s, n, hl, hn, hq, hs => by
    simp only [letters] at hl
    have h1 := evalExpr_fits r s n (by omega) hn hq hs
    have g1 := grow_le (K := K) (by omega) (nodes a r) n
    have g3 := times_le (K := K) (c := 2) (by omega) (K ^ nodes a r * n)
    simp only [evalExpr, nodes, grow_one]
    refine h1.bind (by omega) fun x s1 hq1 hs1 => ?_
    refine Fits.lift hq1 (by omega) fun v hv => ?_
    have := unary_bulk hv
    omega
  | .binary t l r, s, n, hl, hn, hq, hs => by
    simp only [letters] at hl
    have h1 := evalExpr_fits l s n (by omega) hn hq hs
    have g1 := grow_le (K := K) (by omega) (nodes a l) n
    have g2 := grow_le (K := K) (by omega) (nodes a r) (K ^ nodes a l * n)
    have g3 := times_le (K := K) (c := 2) (by omega) (K ^ nodes a r * (K ^ nodes a l * n))
    have h2 := fun (s1 : St F) hq1 (hs1 : bulkPairs s1.ctx.inner ≤ K ^ nodes a l * n) =>
      evalExpr_fits r s1 (K ^ nodes a l * n) (by omega) (by omega) hq1 (by omega)
    simp only [evalExpr, nodes]
    rw [show 1 + nodes a l + nodes a r = 1 + (nodes a l + nodes a r) by omega, grow_one, grow_add]
    cases ho : binaryOp (F := F) t.kind with
    | some op =>
      refine h1.bind (by omega) fun x s1 hq1 hs1 => ?_
      refine (h2 s1 hq1 (by omega)).bind (by omega) fun y s2 hq2 hs2 => ?_
      refine Fits.lift hq2 (by omega) fun v hv => ?_
      have := binary_bulk ho hv
      omega
    | none =>
      dsimp only
      split
      · refine h1.bind (by omega) fun x s1 hq1 hs1 => ?_
        split
        · exact (h2 s1 hq1 (by omega)).mono (by omega)
        · exact ⟨hq1, by show bulkPairs s1.ctx.inner + bulk x ≤ _; omega⟩
      · split
        · refine h1.bind (by omega) fun x s1 hq1 hs1 => ?_
          split
          · exact ⟨hq1, by show bulkPairs s1.ctx.inner + bulk x ≤ _; omega⟩
          · exact (h2 s1 hq1 (by omega)).mono (by omega)
        · exact Fits.lift hq (by omega) fun v hv => nomatch hv
  | .paren e, s, n, hl, hn, hq, hs => by
    simp only [letters] at hl
    have h1 := evalExpr_fits e s n hl hn hq hs
    simp only [evalExpr, nodes]
    exact h1.mono (grow_mono (by omega) (by omega) n)
  | .ifE c t e, s, n, hl, hn, hq, hs => by
    simp only [letters] at hl
    have h1 := evalExpr_fits c s n (by omega) hn hq hs
    have g1 := grow_le (K := K) (by omega) (nodes a c) n
    simp only [evalExpr, nodes]
    refine h1.bind (grow_mono (by omega) (by omega) n) fun v s1 hq1 hs1 => ?_
    have := bulk_pos v
    split
    · refine (evalBlock_fits e .null s1 (K ^ nodes a c * n) (by omega) (by omega) hq1 (by simp only [bulk]; omega)).mono ?_
      rw [← grow_add]
      exact grow_mono (by omega) (by omega) n
    · refine (evalBlock_fits t .null s1 (K ^ nodes a c * n) (by omega) (by omega) hq1 (by simp only [bulk]; omega)).mono ?_
      rw [← grow_add]
      exact grow_mono (by omega) (by omega) n
  | .call f args, s, n, hl, hn, hq, hs => by
    simp only [letters] at hl
    have h1 := evalList_fits args s n hl hn hq hs
    have g1 := grow_le (K := K) (by omega) (nodesAll a args) n
    simp only [evalExpr, nodes]
    rw [show 1 + a + nodesAll a args = nodesAll a args + (1 + a) by omega, grow_add]
    refine h1.bind (grow_le (by omega) _ _) fun vs s1 hq1 hs1 => ?_
    exact hc f vs s1 _ (by omega) hq1 hs1
termination_by structural e => e
theorem evalList_fits : ∀ (l : List (Expr F)) (s : St F) (n : Nat), lettersAll l < M0 → M0 ≤ n → s.ctx.requests = rq → bulkPairs s.ctx.inner ≤ n →
    Fits rq bulkAll (K ^ nodesAll a l * n) (evalList call l s)
  | [], s, n, hl, hn, hq, hs => ⟨hq, by simp only [evalList, M.pure, resRoom, bulkAll, nodesAll, Nat.pow_zero]; omega⟩
  | e :: l, s, n, hl, hn, hq, hs => by
    simp only [lettersAll] at hl
    have h1 := evalExpr_fits e s n (by omega) hn hq hs
    have g1 := grow_le (K := K) (by omega) (nodes a e) n
    have g2 := grow_le (K := K) (by omega) (nodesAll a l) (K ^ nodes a e * n)
    have g3 := times_le (K := K) (c := 2) (by omega) (K ^ nodesAll a l * (K ^ nodes a e * n))
    simp only [evalList, nodesAll]
    rw [show 1 + nodes a e + nodesAll a l = 1 + (nodes a e + nodesAll a l) by omega, grow_one, grow_add]
    refine h1.bind (by omega) fun v s1 hq1 hs1 => ?_
    refine (evalList_fits l s1 (K ^ nodes a e * n) (by omega) (by omega) hq1 (by omega)).bind (by omega) fun vs s2 hq2 hs2 => ⟨hq2, ?_⟩
    show bulkPairs s2.ctx.inner + bulkAll (v :: vs) ≤ _
    simp only [bulkAll]
    omega
termination_by structural l => l
theorem evalPairs_fits : ∀ (l : List (Expr F × Expr F)) (acc : List (Str × Value F)) (s : St F) (n : Nat), lettersPairs l < M0 → M0 ≤ n → s.ctx.requests = rq →
    bulkPairs s.ctx.inner + bulkPairs acc ≤ n → Fits rq bulkPairs (K ^ nodesPairs a l * n) (evalPairs call acc l s)
  | [], acc, s, n, hl, hn, hq, hs => ⟨hq, by simp only [evalPairs, M.pure, resRoom, nodesPairs, Nat.pow_zero]; omega⟩
  | (k, v) :: l, acc, s, n, hl, hn, hq, hs => by
    simp only [lettersPairs] at hl
    have h1 := evalExpr_fits k s n (by omega) hn hq (by omega)
    have g1 := grow_le (K := K) (by omega) (nodes a k) n
    have g2 := grow_le (K := K) (by omega) (nodes a v) (K ^ nodes a k * n)
    have g3 := times_le (K := K) (c := b + 43) (by omega) (K ^ nodes a v * (K ^ nodes a k * n))
    have g4 := grow_le (K := K) (by omega) (nodesPairs a l) (K * (K ^ nodes a v * (K ^ nodes a k * n)))
    have g5 : (b + 43) * (K ^ nodes a v * (K ^ nodes a k * n)) = (b + 40) * (K ^ nodes a v * (K ^ nodes a k * n)) + 3 * (K ^ nodes a v * (K ^ nodes a k * n)) := by
      rw [← Nat.add_mul]
    simp only [evalPairs, nodesPairs]
    rw [show 1 + nodes a k + nodes a v + nodesPairs a l = (1 + (nodes a k + nodes a v)) + nodesPairs a l by omega, grow_add, grow_one, grow_add]
    refine h1.bind (by omega) fun x s1 hq1 hs1 => ?_
    refine (evalExpr_fits v s1 (K ^ nodes a k * n) (by omega) (by omega) hq1 (by omega)).bind (by omega) fun y s2 hq2 hs2 => ?_
    have h3 := bulkPairs_insert x.display y acc
    have h4 := display_short hT x
    have h5 : (b + 40) * bulk x ≤ (b + 40) * (K ^ nodes a v * (K ^ nodes a k * n)) := Nat.mul_le_mul_left _ (by omega)
    exact evalPairs_fits l _ s2 (K * (K ^ nodes a v * (K ^ nodes a k * n))) (by omega) (by omega) hq2 (by omega)
termination_by structural l => l
theorem evalBlock_fits : ∀ (l : List (Expr F)) (acc : Value F) (s : St F) (n : Nat), lettersAll l < M0 → M0 ≤ n → s.ctx.requests = rq →
    bulkPairs s.ctx.inner + bulk acc ≤ n → Fits rq bulk (K ^ nodesAll a l * n) (evalBlock call acc l s)
  | [], acc, s, n, hl, hn, hq, hs => ⟨hq, by simp only [evalBlock, M.pure, resRoom, nodesAll, Nat.pow_zero]; omega⟩
  | e :: l, acc, s, n, hl, hn, hq, hs => by
    simp only [lettersAll] at hl
    have h1 := evalExpr_fits e s n (by omega) hn hq (by omega)
    have g1 := grow_le (K := K) (by omega) (nodes a e) n
    simp only [evalBlock, nodesAll]
    refine h1.bind (grow_mono (by omega) (by omega) n) fun v s1 hq1 hs1 => ?_
    refine (evalBlock_fits l v s1 (K ^ nodes a e * n) (by omega) (by omega) hq1 hs1).mono ?_
    rw [← grow_add]
    exact grow_mono (by omega) (by omega) n
termination_by structural l => l
end

theorem evalAsserts_fits : ∀ (l : List (Expr F)) (s : St F) (n : Nat), lettersAll l < M0 → M0 ≤ n → s.ctx.requests = rq → bulkPairs s.ctx.inner ≤ n →
    Fits rq (fun _ => 0) (K ^ nodesAll a l * n) (evalAsserts call l s) := by
  intro l
  induction l with
  | nil => intro s n hl hn hq hs; exact ⟨hq, by simp only [evalAsserts, M.pure, resRoom, nodesAll, Nat.pow_zero]; omega⟩
  | cons e rest ih =>
    intro s n hl hn hq hs
    have pass : letters e + lettersAll rest < M0 → Fits rq (fun _ => 0) (K ^ nodesAll a (e :: rest) * n) (evalAsserts call rest s) := fun hl =>
      (ih s n (by omega) hn hq hs).mono (by simp only [nodesAll]; exact grow_mono (by omega) (by omega) n)
    cases e
    case binary t l r =>
      simp only [lettersAll, letters] at hl
      have g1 := grow_le (K := K) (by omega) (nodes a l) n
      have g2 := grow_le (K := K) (by omega) (nodes a r) (K ^ nodes a l * n)
      have g3 := grow_le (K := K) (by omega) (nodesAll a rest) (K ^ nodes a r * (K ^ nodes a l * n))
      have h1 := (evalExpr_fits hT hK hc l s n (by omega) hn hq hs).orElse
      have key : K ^ nodesAll a rest * (K ^ nodes a r * (K ^ nodes a l * n)) ≤ K ^ nodesAll a (.binary t l r :: rest) * n := by
        rw [← grow_add, ← grow_add]
        simp only [nodesAll, nodes]
        exact grow_mono (by omega) (by omega) n
      refine Fits.mono ?_ key
      simp only [evalAsserts]
      refine h1.bind (by omega) fun x s1 hq1 hs1 => ?_
      have h2 := (evalExpr_fits hT hK hc r s1 (K ^ nodes a l * n) (by omega) (by omega) hq1 (by omega)).orElse (n := K ^ nodes a r * (K ^ nodes a l * n))
      refine h2.bind (by omega) fun y s2 hq2 hs2 => ?_
      refine (ih s2 (K ^ nodes a r * (K ^ nodes a l * n)) (by omega) (by omega) hq2 (by omega)).bind (Nat.le_refl _) fun as s3 hq3 hs3 => ?_
      cases compareValues t.kind x y with
      | some result => exact ⟨hq3, hs3⟩
      | none => exact ⟨hq3, hs3⟩
    all_goals exact pass (by simpa only [lettersAll] using hl)

end

theorem callNative_fits {b K M0 : Nat} (hT : Tame F b) (hK : b + 50 ≤ K) (hM : 1 ≤ M0) (rq : List (Str × (Str × List (Expr F)))) (a : Nat) :
    CallFits K a M0 rq (callNative (F := F)) := by
  intro name vs s n hn hq hs
  have g1 := grow_le (K := K) (by omega) a n
  have g2 := times_le (K := K) (c := b + 42) (by omega) (K ^ a * n)
  have g3 : (b + 42) * (K ^ a * n) = (b + 40) * (K ^ a * n) + 2 * (K ^ a * n) := by rw [← Nat.add_mul]
  have g4 : (b + 40) * bulkAll vs ≤ (b + 40) * (K ^ a * n) := Nat.mul_le_mul_left _ (by omega)
  rw [grow_one]
  have shown : ∀ (f : Value F → St F → St F), (∀ v s, (f v s).ctx = s.ctx) →
      Fits rq bulk (K * (K ^ a * n)) ((do
        let v ← M.lift (nativeFormat vs)
        M.modify (f v)
        pure .null : M F (Value F)) s) := by
    intro f hf
    refine (Fits.lift (m := fun _ => 0) (n := n) hq (by omega) fun v _ => by omega).bind (by omega) fun v s1 hq1 hs1 => ?_
    rw [M.bind_ok (M.modify_run _ _)]
    refine ⟨?_, ?_⟩
    · show (f v s1).ctx.requests = rq
      rw [hf, hq1]
    · show bulkPairs (f v s1).ctx.inner + bulk (F := F) .null ≤ _
      rw [hf]
      simp only [bulk]
      omega
  unfold callNative
  split
  · exact shown _ fun _ _ => rfl
  · split
    · exact shown _ fun _ _ => rfl
    · split
      · exact Fits.lift hq (by omega) fun v hv => by have := nativeFormat_bulk hT hv; omega
      · split
        · exact Fits.lift hq (by omega) fun v hv => by have := nativeLength_bulk hv; omega
        · split
          · exact Fits.lift hq (by omega) fun v hv => by have := nativeAppend_bulk hv; omega
          · exact Fits.lift hq (by omega) fun v hv => nomatch hv

theorem callAt_none_fits {b K M0 : Nat} (hT : Tame F b) (hK : b + 50 ≤ K) (hM : 1 ≤ M0) (net : Net) (i a : Nat) : CallFits K a M0 [] (callAt (F := F) net i) := by
  intro name vs s n hn hq hs
  have h := callNative_fits hT hK hM [] a name vs s n hn hq hs
  have hr : s.ctx.request name = none := by simp only [Context.request, hq, amGet]
  cases i <;> simp only [callAt, hr] <;> exact h

theorem callAt_fits {b K M0 a : Nat} (hT : Tame F b) (hK : b + 50 ≤ K) (hM : 1 ≤ M0) {net : Net} (hnet : Answers F net M0)
    {rq : List (Str × (Str × List (Expr F)))} (hrq : ∀ name message asserts, amGet name rq = some (message, asserts) → nodesAll 0 asserts ≤ a ∧ lettersAll asserts < M0)
    (i : Nat) : CallFits K a M0 rq (callAt (F := F) net (i + 1)) := by
  intro name vs s n hn hq hs
  cases hr : s.ctx.request name with
  | none => simp only [callAt, hr]; exact callNative_fits hT hK hM rq a name vs s n hn hq hs
  | some p =>
    obtain ⟨message, asserts⟩ := p
    simp only [callAt, hr]
    have hr' : amGet name rq = some (message, asserts) := by rw [← hq]; exact hr
    obtain ⟨h1, h2⟩ := hrq _ _ _ hr'
    have g1 := grow_le (K := K) (by omega) a n
    have g2 := times_le (K := K) (c := 3) (by omega) (K ^ a * n)
    rw [grow_one]
    rcases callRequest_cases net i name message asserts s with ⟨rq', rs, t, e, map, as, ctx', o, e1, e2, e3, e4⟩ | ⟨o, e1, _⟩ | ⟨o, e1, _⟩
    · rw [e4]
      have hb := hnet _ _ _ _ _ _ _ e1 e2
      have := evalAsserts_fits hT hK (callAt_none_fits hT hK hM net i 0) asserts ⟨Context.ofMap map, [], []⟩ n h2 hn rfl
        (by show bulkPairs map ≤ n; omega)
      rw [e3] at this
      have h3 : bulkPairs ctx'.inner + 0 ≤ K ^ nodesAll 0 asserts * n := this.2
      have h4 := grow_mono (K := K) (by omega) h1 n
      refine ⟨hq, ?_⟩
      show bulkPairs s.ctx.inner + bulk (.map ctx'.inner) ≤ _
      simp only [bulk]
      omega
    · rw [e1]
      exact ⟨hq, by simp only [resRoom]; omega⟩
    · rw [e1]
      exact ⟨hq, by simp only [resRoom]; omega⟩

end Am
