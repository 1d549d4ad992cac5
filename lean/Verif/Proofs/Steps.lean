import Verif.Model.Steps
import Verif.Proofs.ParserFuel
/-! # Counting the steps of the parser -/
set_option linter.unusedSimpArgs false
set_option linter.unusedSectionVars false
namespace Am
open Spec
variable {F : Type} [Rt F]

/-! ## Counting changes no result -/

theorem Cnt.fst_bind {α β : Type} (x : Cnt α) (f : α → Cnt β) : (x >>= f).1 = (x.1 >>= fun a => (f a).1) := by
  obtain ⟨r, n⟩ := x
  cases r <;> rfl

theorem Cnt.fst_pure {α : Type} (a : α) : (Pure.pure a : Cnt α).1 = Pure.pure a := rfl
theorem Cnt.fst_free {α : Type} (r : Res α) : (Cnt.free r).1 = r := rfl
theorem Cnt.fst_tick : Cnt.tick.1 = .ok () := rfl

/-- The counting call gives the results of the plain one. -/
def Same (tpe : TPE F) (pe : PE F) : Prop := ∀ prec s, (tpe prec s).1 = pe prec s

theorem same_list {tpe : TPE F} {pe : PE F} (h : Same tpe pe) (k : Kind) (n : Nat) : ∀ s, (tparseListLoop tpe k n s).1 = parseListLoop pe k n s := by
  induction n with
  | zero => intro s; rfl
  | succ n ih =>
    intro s
    simp only [tparseListLoop, parseListLoop]
    split
    · rfl
    · simp only [Cnt.fst_bind, Cnt.fst_tick, Res.ok_bind, h _ _]
      congr; funext a
      split <;> simp only [Cnt.fst_bind, Cnt.fst_free, Cnt.fst_pure, ih]

theorem same_pairs {tpe : TPE F} {pe : PE F} (h : Same tpe pe) (n : Nat) : ∀ s, (tparsePairsLoop tpe n s).1 = parsePairsLoop pe n s := by
  induction n with
  | zero => intro s; rfl
  | succ n ih =>
    intro s
    simp only [tparsePairsLoop, parsePairsLoop]
    split
    · rfl
    · simp only [Cnt.fst_bind, Cnt.fst_tick, Cnt.fst_free, Res.ok_bind, h _ _]
      congr; funext a; congr; funext b; congr; funext c
      split <;> simp only [Cnt.fst_bind, Cnt.fst_free, Cnt.fst_pure, ih]

theorem same_blockLoop {tpe : TPE F} {pe : PE F} (h : Same tpe pe) (n : Nat) : ∀ s, (tparseBlockLoop tpe n s).1 = parseBlockLoop pe n s := by
  induction n with
  | zero => intro s; rfl
  | succ n ih =>
    intro s
    simp only [tparseBlockLoop, parseBlockLoop]
    split
    · rfl
    · simp only [Cnt.fst_bind, Cnt.fst_tick, Cnt.fst_free, Cnt.fst_pure, Res.ok_bind, h _ _, ih]

theorem same_block {tpe : TPE F} {pe : PE F} (h : Same tpe pe) (n : Nat) (s : PS) : (tparseBlock tpe n s).1 = parseBlock pe n s := by
  simp only [tparseBlock, parseBlock, Cnt.fst_bind, Cnt.fst_free, Cnt.fst_pure, same_blockLoop h]

theorem same_prefix {tpe : TPE F} {pe : PE F} (h : Same tpe pe) (n prec : Nat) (s : PS) : (tparsePrefix tpe n prec s).1 = parsePrefix pe n prec s := by
  have hif : (tparseIf tpe n s).1 = parseIf pe n s := by
    simp only [tparseIf, parseIf, Cnt.fst_bind, Cnt.fst_free, Cnt.fst_pure, h _ _, same_block h]
    congr; funext a; congr; funext b; congr; funext c; congr; funext d
    split <;> simp only [Cnt.fst_bind, Cnt.fst_free, Cnt.fst_pure, same_block h]
  have hlist : ∀ k, (tparseList tpe n k s).1 = parseList pe n k s := fun k => by
    simp only [tparseList, parseList, Cnt.fst_bind, Cnt.fst_free, Cnt.fst_pure, same_list h]
  unfold tparsePrefix parsePrefix
  cases s.cur.kind <;>
    simp only [tparseLet, parseLet, tparseUnary, parseUnary, tparseParen, parseParen, tparseArray, parseArray, tparseMap, parseMap, hif, hlist,
      Cnt.fst_bind, Cnt.fst_free, Cnt.fst_pure, h _ _, same_pairs h]

theorem same_loop {tpe : TPE F} {pe : PE F} (h : Same tpe pe) (prec n : Nat) : ∀ left s, (tparseLoop tpe prec n left s).1 = parseLoop pe prec n left s := by
  induction n with
  | zero => intro left s; rfl
  | succ n ih =>
    intro left s
    have hlist : ∀ k s, (tparseList tpe n k s).1 = parseList pe n k s := fun k s => by
      simp only [tparseList, parseList, Cnt.fst_bind, Cnt.fst_free, Cnt.fst_pure, same_list h]
    have hcall : ∀ s, (tparseCall tpe n left s).1 = parseCall pe n left s := fun s => by
      simp only [tparseCall, parseCall, Cnt.fst_bind, hlist]
      congr; funext a
      cases left <;> rfl
    simp only [tparseLoop, parseLoop]
    by_cases hc : (!s.peekIs .Semi && decide (prec < s.peekPrec)) = true
    · rw [if_pos hc, if_pos hc]
      cases hp : s.peek with
      | none => simp only [Cnt.fst_bind, Cnt.fst_tick, Res.ok_bind, ih]
      | some t =>
        by_cases h1 : t.kind.isBinary = true
        · simp only [if_pos h1, tparseBinary, parseBinary, Cnt.fst_bind, Cnt.fst_tick, Cnt.fst_free, Cnt.fst_pure, Res.ok_bind, h _ _, ih]
        · by_cases h2 : t.kind = .Lp
          · simp only [if_neg h1, if_pos h2, Cnt.fst_bind, Cnt.fst_tick, Res.ok_bind, hcall, ih]
          · by_cases h3 : t.kind = .Ls
            · simp only [if_neg h1, if_neg h2, if_pos h3, tparseIndex, parseIndex, Cnt.fst_bind, Cnt.fst_tick, Cnt.fst_free, Cnt.fst_pure, Res.ok_bind, h _ _, ih]
            · by_cases h4 : t.kind = .Dot
              · simp only [if_neg h1, if_neg h2, if_neg h3, if_pos h4, tparseField, parseField, Cnt.fst_bind, Cnt.fst_tick, Cnt.fst_free, Cnt.fst_pure, Res.ok_bind, ih]
              · simp only [if_neg h1, if_neg h2, if_neg h3, if_neg h4, Cnt.fst_bind, Cnt.fst_tick, Res.ok_bind, ih]
    · rw [if_neg hc, if_neg hc]
      rfl

theorem same_expr (n : Nat) : Same (tparseExpr (F := F) n) (parseExpr n) := by
  induction n with
  | zero => intro prec s; rfl
  | succ n ih =>
    intro prec s
    simp only [tparseExpr, parseExpr, Cnt.fst_bind, Cnt.fst_tick, Res.ok_bind, same_prefix ih, same_loop ih]

theorem same_item (n : Nat) (src : Source F) (s : PS) : (tparseItem n src s).1 = parseItem n src s := by
  have hlist : ∀ k s, (tparseList (tparseExpr (F := F) n) n k s).1 = parseList (parseExpr n) n k s := fun k s => by
    simp only [tparseList, parseList, Cnt.fst_bind, Cnt.fst_free, Cnt.fst_pure, same_list (same_expr n)]
  have hreq : (tparseRequest (F := F) n s).1 = parseRequest n s := by
    simp only [tparseRequest, parseRequest, Cnt.fst_bind, Cnt.fst_free, Cnt.fst_pure]
    congr; funext a; congr; funext b
    split <;> simp only [Cnt.fst_bind, Cnt.fst_free, Cnt.fst_pure, hlist]
  unfold tparseItem parseItem
  cases s.cur.kind <;>
    simp only [tparseTest, parseTest, hreq, Cnt.fst_bind, Cnt.fst_free, Cnt.fst_pure, same_expr n _ _, same_block (same_expr n)]

theorem same_top (n k : Nat) : ∀ (src : Source F) s, (tparseTop n k src s).1 = parseTop n k src s := by
  induction k with
  | zero => intro src s; rfl
  | succ k ih =>
    intro src s
    simp only [tparseTop, parseTop]
    split
    · rfl
    · simp only [Cnt.fst_bind, Cnt.fst_tick, Res.ok_bind, same_item, ih]

/-! ## The number of steps -/

/-- Started with `s.rest` still to come: on success `n` steps have been paid for by the tokens read, two for each, and `a` more;
on an error by all tokens and `e` more. -/
def Paid {α : Type} (at' : α → PS) (s : PS) (a e : Int) (c : Cnt α) : Prop :=
  match c with
  | (.ok v, n) => EndsEof (at' v).rest ∧ (n : Int) + 2 * (at' v).rest.length ≤ 2 * s.rest.length + a
  | (.err _, n) => (n : Int) ≤ 2 * s.rest.length + e
  | (.panic, _) => False
  | (.hang, _) => True

theorem Paid.mono {α : Type} {p : α → PS} {s : PS} {a e a' e' : Int} {c : Cnt α} (h : Paid p s a e c) (ha : a ≤ a') (he : e ≤ e') :
    Paid p s a' e' c := by
  obtain ⟨r, n⟩ := c
  cases r with
  | ok v => exact ⟨h.1, by have := h.2; omega⟩
  | err m => have : (n : Int) ≤ _ := h; show (n : Int) ≤ _; omega
  | panic => exact h
  | hang => trivial

theorem Paid.bind {α β : Type} {p : α → PS} {q : β → PS} {s : PS} {a e a' e' A E : Int} {x : Cnt α} {f : α → Cnt β} (h : Paid p s a e x)
    (hf : ∀ v, EndsEof (p v).rest → Paid q (p v) a' e' (f v)) (hA : a + a' ≤ A) (hE : e ≤ E) (hE' : a + e' ≤ E) : Paid q s A E (x >>= f) := by
  obtain ⟨r, n⟩ := x
  cases r with
  | ok v =>
    obtain ⟨h1, h2⟩ := h
    have hv := hf v h1
    show Paid q s A E ((f v).1, n + (f v).2)
    rcases hfv : f v with ⟨r', m⟩
    rw [hfv] at hv
    cases r' with
    | ok w => exact ⟨hv.1, by have := hv.2; push_cast; omega⟩
    | err m' => have : (m : Int) ≤ _ := hv; show ((n + m : Nat) : Int) ≤ _; push_cast; omega
    | panic => exact hv
    | hang => trivial
  | err m => have : (n : Int) ≤ _ := h; show (n : Int) ≤ _; omega
  | panic => exact h
  | hang => trivial

theorem Paid.tick {β : Type} {q : β → PS} {s : PS} {a e A E : Int} {f : Unit → Cnt β} (h : Paid q s a e (f ())) (hA : a + 1 ≤ A) (hE : e + 1 ≤ E) :
    Paid q s A E (Cnt.tick >>= f) := by
  show Paid q s A E ((f ()).1, 1 + (f ()).2)
  rcases hfv : f () with ⟨r', m⟩
  rw [hfv] at h
  cases r' with
  | ok w => exact ⟨h.1, by have := h.2; push_cast; omega⟩
  | err m' => have : (m : Int) ≤ _ := h; show ((1 + m : Nat) : Int) ≤ _; push_cast; omega
  | panic => exact h
  | hang => trivial

theorem paid_pure {α : Type} {p : α → PS} {s : PS} {a e : Int} {v : α} (h : EndsEof (p v).rest) (hl : (p v).rest.length ≤ s.rest.length) (ha : 0 ≤ a) :
    Paid p s a e (Pure.pure v : Cnt α) := ⟨h, by omega⟩

theorem paid_expect {s : PS} {k : Kind} (hk : k ≠ .Eof) (h : EndsEof s.rest) : Paid id s (-2) 0 (Cnt.free (s.expect k)) := by
  cases he : s.expect k with
  | ok s' =>
    obtain ⟨h1, h2⟩ := expect_len hk h he
    exact ⟨h1, by simp only [id]; omega⟩
  | err m => show ((0 : Nat) : Int) ≤ _; omega
  | panic => simp only [PS.expect] at he; split at he <;> (try split at he) <;> cases he
  | hang => trivial

theorem paid_free {α β : Type} {q : β → PS} {s : PS} {a e : Int} {r : Res α} {f : α → Cnt β} (hr : r ≠ .panic)
    (h : ∀ v, Paid q s a e (f v)) (he : 0 ≤ e) : Paid q s a e (Cnt.free r >>= f) := by
  cases r with
  | ok v =>
    have := h v
    show Paid q s a e ((f v).1, 0 + (f v).2)
    rw [Nat.zero_add]
    exact this
  | err m => show ((0 : Nat) : Int) ≤ _; omega
  | panic => exact absurd rfl hr
  | hang => trivial

/-- A recursive call pays for all but one of its steps. -/
def PaidPE (tpe : TPE F) : Prop := ∀ prec s, EndsEof (s.cur :: s.rest) → Paid (·.2) s 1 1 (tpe prec s)

theorem paid_next {tpe : TPE F} (h : PaidPE tpe) {prec : Nat} {s : PS} (hE : EndsEof s.rest) : Paid (·.2) s (-1) (-1) (tpe prec s.next) := by
  obtain ⟨h1, h2, h3⟩ := next_len hE
  have := h prec s.next h1
  revert this
  generalize tpe prec s.next = c
  intro hc
  have hl : s.rest.length = s.next.rest.length + 1 := by rw [h3]; rfl
  obtain ⟨r, n⟩ := c
  cases r with
  | ok v => exact ⟨hc.1, by have := hc.2; omega⟩
  | err m => have : (n : Int) ≤ _ := hc; show (n : Int) ≤ _; omega
  | panic => exact hc
  | hang => trivial

theorem paid_semi {β : Type} {q : β → PS} {s : PS} {a e : Int} {c : Cnt β} (hE : EndsEof s.rest) (h : Paid q (skipSemi s) a e c) : Paid q s a e c := by
  obtain ⟨_, h2⟩ := skipSemi_len hE
  obtain ⟨r, n⟩ := c
  cases r with
  | ok v => exact ⟨h.1, by have := h.2; omega⟩
  | err m => have : (n : Int) ≤ _ := h; show (n : Int) ≤ _; omega
  | panic => exact h
  | hang => trivial

theorem paid_list {tpe : TPE F} (h : PaidPE tpe) (k : Kind) (n : Nat) : ∀ s, EndsEof s.rest → Paid (·.2) s 0 0 (tparseListLoop tpe k n s) := by
  induction n with
  | zero => intro s _; trivial
  | succ n ih =>
    intro s hE
    simp only [tparseListLoop]
    split
    · exact paid_pure hE (Nat.le_refl _) (Int.le_refl _)
    · refine Paid.tick (a := -1) (e := -1) ?_ (by omega) (by omega)
      refine Paid.bind (paid_next h hE) (a' := 0) (e' := 0) ?_ (by omega) (by omega) (by omega)
      rintro ⟨e, s1⟩ hE1
      dsimp only at hE1 ⊢
      have hrec : ∀ s2, EndsEof s2.rest → Paid (fun x : List (Expr F) × PS => x.2) s2 0 0 (do
          let (es, s) ← tparseListLoop tpe k n s2
          Pure.pure (e :: es, s)) := fun s2 hE2 =>
        Paid.bind (ih s2 hE2) (a' := 0) (e' := 0) (fun v hv => paid_pure hv (Nat.le_refl _) (Int.le_refl _)) (by omega) (by omega) (by omega)
      split
      · exact Paid.bind (p := id) (s := s1) (a := 0) (e := 0) (paid_pure hE1 (Nat.le_refl _) (Int.le_refl _)) (fun s2 hE2 => hrec s2 hE2) (by omega) (by omega) (by omega)
      · exact Paid.bind (paid_expect (by decide) hE1) (fun s2 hE2 => hrec s2 hE2) (by omega) (by omega) (by omega)

theorem paid_lists {tpe : TPE F} (h : PaidPE tpe) {k : Kind} (hk : k ≠ .Eof) (n : Nat) {s : PS} (hE : EndsEof s.rest) :
    Paid (·.2) s (-2) 0 (tparseList tpe n k s) := by
  simp only [tparseList]
  refine Paid.bind (paid_list h k n s hE) (a' := -2) (e' := 0) ?_ (by omega) (by omega) (by omega)
  rintro ⟨es, s1⟩ hE1
  exact Paid.bind (paid_expect hk hE1) (a' := 0) (e' := 0) (fun s2 hE2 => paid_pure hE2 (Nat.le_refl _) (Int.le_refl _)) (by omega) (by omega) (by omega)

theorem paid_pairs {tpe : TPE F} (h : PaidPE tpe) (n : Nat) : ∀ s, EndsEof s.rest → Paid (·.2) s 0 0 (tparsePairsLoop tpe n s) := by
  induction n with
  | zero => intro s _; trivial
  | succ n ih =>
    intro s hE
    simp only [tparsePairsLoop]
    split
    · exact paid_pure hE (Nat.le_refl _) (Int.le_refl _)
    · refine Paid.tick (a := -1) (e := -1) ?_ (by omega) (by omega)
      refine Paid.bind (paid_next h hE) (a' := 0) (e' := 0) ?_ (by omega) (by omega) (by omega)
      rintro ⟨k, s1⟩ hE1
      refine Paid.bind (paid_expect (by decide) hE1) (a' := 0) (e' := 0) ?_ (by omega) (by omega) (by omega)
      intro s2 hE2
      refine Paid.bind (paid_next h hE2) (a' := 0) (e' := 0) ?_ (by omega) (by omega) (by omega)
      rintro ⟨v, s3⟩ hE3
      dsimp only at hE3 ⊢
      have hrec : ∀ s2, EndsEof s2.rest → Paid (fun x : List (Expr F × Expr F) × PS => x.2) s2 0 0 (do
          let (ps, s) ← tparsePairsLoop tpe n s2
          Pure.pure ((k, v) :: ps, s)) := fun s2 hE2 =>
        Paid.bind (ih s2 hE2) (a' := 0) (e' := 0) (fun v hv => paid_pure hv (Nat.le_refl _) (Int.le_refl _)) (by omega) (by omega) (by omega)
      split
      · exact Paid.bind (p := id) (s := s3) (a := 0) (e := 0) (paid_pure hE3 (Nat.le_refl _) (Int.le_refl _)) (fun s2 hE2 => hrec s2 hE2) (by omega) (by omega) (by omega)
      · exact Paid.bind (paid_expect (by decide) hE3) (fun s2 hE2 => hrec s2 hE2) (by omega) (by omega) (by omega)

theorem paid_blockLoop {tpe : TPE F} (h : PaidPE tpe) (n : Nat) : ∀ s, EndsEof s.rest → Paid (·.2) s 0 0 (tparseBlockLoop tpe n s) := by
  induction n with
  | zero => intro s _; trivial
  | succ n ih =>
    intro s hE
    simp only [tparseBlockLoop]
    split
    · exact paid_pure hE (Nat.le_refl _) (Int.le_refl _)
    · refine Paid.tick (a := -1) (e := -1) ?_ (by omega) (by omega)
      refine Paid.bind (paid_next h hE) (a' := 0) (e' := 0) ?_ (by omega) (by omega) (by omega)
      rintro ⟨k, s1⟩ hE1
      refine paid_semi hE1 ?_
      exact Paid.bind (ih _ (skipSemi_len hE1).1) (a' := 0) (e' := 0) (fun v hv => paid_pure hv (Nat.le_refl _) (Int.le_refl _)) (by omega) (by omega) (by omega)

theorem paid_block {tpe : TPE F} (h : PaidPE tpe) (n : Nat) {s : PS} (hE : EndsEof s.rest) : Paid (·.2) s (-4) 0 (tparseBlock tpe n s) := by
  simp only [tparseBlock]
  refine Paid.bind (paid_expect (by decide) hE) (a' := -2) (e' := 0) ?_ (by omega) (by omega) (by omega)
  intro s1 hE1
  refine Paid.bind (paid_blockLoop h n s1 hE1) (a' := -2) (e' := 0) ?_ (by omega) (by omega) (by omega)
  rintro ⟨es, s2⟩ hE2
  exact Paid.bind (paid_expect (by decide) hE2) (a' := 0) (e' := 0) (fun s2 hE2 => paid_pure hE2 (Nat.le_refl _) (Int.le_refl _)) (by omega) (by omega) (by omega)

/-- One token more, if there is one. -/
theorem paid_skip {β : Type} {q : β → PS} {s : PS} {a e : Int} {c : Cnt β} (h : Paid q s.next a e c) : Paid q s a e c := by
  have hl : s.next.rest.length ≤ s.rest.length := by
    unfold PS.next
    split
    · exact Nat.le_refl _
    · rename_i t r hr
      rw [hr]; simp
  obtain ⟨r, n⟩ := c
  cases r with
  | ok v => exact ⟨h.1, by have := h.2; omega⟩
  | err m => have : (n : Int) ≤ _ := h; show (n : Int) ≤ _; omega
  | panic => exact h
  | hang => trivial

theorem peekIs_live {s : PS} {k : Kind} (hk : k ≠ .Eof) (hE : EndsEof s.rest) (h : s.peekIs k = true) : EndsEof s.next.rest := by
  obtain ⟨t, r, hr, ht⟩ := peekIs_true h
  rw [next_of hr]
  rw [hr] at hE
  exact endsEof_tail hE (by rw [ht]; exact hk)

theorem paid_if {tpe : TPE F} (h : PaidPE tpe) (n : Nat) {s : PS} (hE : EndsEof s.rest) : Paid (·.2) s 0 0 (tparseIf tpe n s) := by
  simp only [tparseIf]
  refine Paid.bind (paid_expect (by decide) hE) (a' := 0) (e' := 0) ?_ (by omega) (by omega) (by omega)
  intro s1 hE1
  refine Paid.bind (paid_next h hE1) (a' := 0) (e' := 0) ?_ (by omega) (by omega) (by omega)
  rintro ⟨c, s2⟩ hE2
  refine Paid.bind (paid_expect (by decide) hE2) (a' := 0) (e' := 0) ?_ (by omega) (by omega) (by omega)
  intro s3 hE3
  refine Paid.bind (paid_block h n hE3) (a' := 0) (e' := 0) ?_ (by omega) (by omega) (by omega)
  rintro ⟨t, s4⟩ hE4
  dsimp only at hE4 ⊢
  split
  · rename_i hp
    refine paid_skip ?_
    exact Paid.bind (paid_block h n (peekIs_live (by decide) hE4 hp)) (a' := 0) (e' := 0)
      (fun v hv => paid_pure hv (Nat.le_refl _) (Int.le_refl _)) (by omega) (by omega) (by omega)
  · exact paid_pure hE4 (Nat.le_refl _) (Int.le_refl _)

/-- The results of a computation with something added. -/
theorem paid_map {α β : Type} {p : α → PS} {q : β → PS} {s : PS} {a e : Int} {x : Cnt α} {f : α → β} (h : Paid p s a e x) (hf : ∀ v, q (f v) = p v) :
    Paid q s a e (x >>= fun v => Pure.pure (f v)) := by
  obtain ⟨r, n⟩ := x
  cases r with
  | ok v => exact ⟨by rw [hf]; exact h.1, by rw [hf]; exact h.2⟩
  | err m => exact h
  | panic => exact h
  | hang => trivial

theorem paid_prefix {tpe : TPE F} (h : PaidPE tpe) (n prec : Nat) {s : PS} (hE : EndsEof (s.cur :: s.rest)) :
    Paid (·.2.2) s 0 0 (tparsePrefix tpe n prec s) := by
  have live : s.cur.kind ≠ .Eof → EndsEof s.rest := fun hk => endsEof_tail hE hk
  have atom : s.cur.kind ≠ .Eof → ∀ e : Expr F, Paid (fun x : Expr F × Nat × PS => x.2.2) s 0 0 (Pure.pure (e, prec, s)) :=
    fun hk e => paid_pure (live hk) (Nat.le_refl _) (Int.le_refl _)
  unfold tparsePrefix
  split
  · rename_i hk; exact atom (by rw [hk]; decide) _
  · rename_i hk; exact paid_free (by unfold parseInteger; split <;> nofun) (atom (by rw [hk]; decide)) (Int.le_refl _)
  · rename_i hk; exact paid_free (by unfold parseFloat; split <;> nofun) (atom (by rw [hk]; decide)) (Int.le_refl _)
  · rename_i hk; exact paid_free (by unfold parseBoolean; split <;> nofun) (atom (by rw [hk]; decide)) (Int.le_refl _)
  · rename_i hk; exact paid_free (by unfold parseBoolean; split <;> nofun) (atom (by rw [hk]; decide)) (Int.le_refl _)
  · rename_i hk; exact atom (by rw [hk]; decide) _
  · rename_i hk
    refine paid_map (p := (·.2)) ?_ (fun _ => rfl)
    simp only [tparseLet]
    refine Paid.bind (paid_expect (by decide) (live (by rw [hk]; decide))) (a' := 0) (e' := 0) ?_ (by omega) (by omega) (by omega)
    intro s1 hE1
    refine Paid.bind (paid_expect (by decide) hE1) (a' := 0) (e' := 0) ?_ (by omega) (by omega) (by omega)
    intro s2 hE2
    refine Paid.bind (paid_next h hE2) (a' := 0) (e' := 0) ?_ (by omega) (by omega) (by omega)
    rintro ⟨v, s3⟩ hE3
    exact paid_pure (skipSemi_len hE3).1 (skipSemi_len hE3).2 (Int.le_refl _)
  · rename_i hk
    refine paid_map (p := (·.2)) ?_ (fun _ => rfl)
    exact paid_map (p := (·.2)) ((paid_next h (live (by rw [hk]; decide))).mono (by omega) (by omega)) (fun _ => rfl)
  · rename_i hk
    refine paid_map (p := (·.2)) ?_ (fun _ => rfl)
    exact paid_map (p := (·.2)) ((paid_next h (live (by rw [hk]; decide))).mono (by omega) (by omega)) (fun _ => rfl)
  · rename_i hk
    refine paid_map (p := (·.2)) ?_ (fun _ => rfl)
    simp only [tparseParen]
    refine Paid.bind (paid_next h (live (by rw [hk]; decide))) (a' := 0) (e' := 0) ?_ (by omega) (by omega) (by omega)
    rintro ⟨v, s3⟩ hE3
    exact Paid.bind (paid_expect (by decide) hE3) (a' := 0) (e' := 0) (fun s2 hE2 => paid_pure hE2 (Nat.le_refl _) (Int.le_refl _)) (by omega) (by omega) (by omega)
  · rename_i hk
    exact paid_map (p := (·.2)) (paid_if h n (live (by rw [hk]; decide))) (fun _ => rfl)
  · rename_i hk
    refine paid_map (p := (·.2)) ?_ (fun _ => rfl)
    exact paid_map (p := (·.2)) ((paid_lists h (k := .Rs) (by decide) n (live (by rw [hk]; decide))).mono (by omega) (by omega)) (fun _ => rfl)
  · rename_i hk
    refine paid_map (p := (·.2)) ?_ (fun _ => rfl)
    simp only [tparseMap]
    refine Paid.bind (paid_pairs h n s (live (by rw [hk]; decide))) (a' := 0) (e' := 0) ?_ (by omega) (by omega) (by omega)
    rintro ⟨v, s3⟩ hE3
    exact Paid.bind (paid_expect (by decide) hE3) (a' := 0) (e' := 0) (fun s2 hE2 => paid_pure hE2 (Nat.le_refl _) (Int.le_refl _)) (by omega) (by omega) (by omega)
  · show ((0 : Nat) : Int) ≤ _
    omega

/-- An iteration that changes nothing is repeated for ever. -/
theorem tparseLoop_stuck {tpe : TPE F} {prec : Nat} {left : Expr F} {s : PS} (hc : (!s.peekIs .Semi && decide (prec < s.peekPrec)) = true)
    (h : ∀ t, s.peek = some t → t.kind.isBinary = false ∧ t.kind ≠ .Lp ∧ t.kind ≠ .Ls ∧ t.kind ≠ .Dot) (n : Nat) :
    (tparseLoop tpe prec n left s).1 = .hang := by
  induction n with
  | zero => rfl
  | succ n ih =>
    simp only [tparseLoop]
    rw [if_pos hc]
    cases hp : s.peek with
    | none => simp only [Cnt.fst_bind, Cnt.fst_tick, Res.ok_bind, ih]
    | some t =>
      obtain ⟨h1, h2, h3, h4⟩ := h t hp
      simp only [h1, if_neg h2, if_neg h3, if_neg h4, Bool.false_eq_true, if_false, Cnt.fst_bind, Cnt.fst_tick, Res.ok_bind, ih]

theorem paid_hang {α : Type} {p : α → PS} {s : PS} {a e : Int} {c : Cnt α} (h : c.1 = .hang) : Paid p s a e c := by
  obtain ⟨r, n⟩ := c
  dsimp only at h
  subst h
  trivial

theorem peek_next {s : PS} {t : Token} (hE : EndsEof s.rest) (hp : s.peek = some t) (hk : t.kind ≠ .Eof) :
    EndsEof s.next.rest ∧ s.rest.length = s.next.rest.length + 1 := by
  obtain ⟨u, r, hr⟩ := endsEof_cases hE
  have : u = t := by simpa [PS.peek, hr] using hp
  subst this
  rw [next_of hr]
  rw [hr] at hE
  exact ⟨endsEof_tail hE hk, by rw [hr]; rfl⟩

/-- Two steps are paid for by moving to the next token. -/
theorem paid_move {β : Type} {q : β → PS} {s : PS} {a e a' e' : Int} {c : Cnt β} (hl : s.rest.length = s.next.rest.length + 1) (h : Paid q s.next a e c)
    (ha : a ≤ a' + 2) (he : e ≤ e' + 2) : Paid q s a' e' c := by
  obtain ⟨r, n⟩ := c
  cases r with
  | ok v => exact ⟨h.1, by have := h.2; omega⟩
  | err m => have : (n : Int) ≤ _ := h; show (n : Int) ≤ _; omega
  | panic => exact h
  | hang => trivial

theorem paid_loop {tpe : TPE F} (h : PaidPE tpe) (prec n : Nat) : ∀ left s, EndsEof s.rest → Paid (·.2) s 0 0 (tparseLoop tpe prec n left s) := by
  induction n with
  | zero => intro left s _; trivial
  | succ n ih =>
    intro left s hE
    by_cases hc : (!s.peekIs .Semi && decide (prec < s.peekPrec)) = true
    · obtain ⟨t, r, hr⟩ := endsEof_cases hE
      have hp : s.peek = some t := by rw [PS.peek, hr]; rfl
      have go : ∀ c : Cnt (Expr F × PS), (t.kind ≠ .Eof) → (EndsEof s.next.rest → Paid (fun x : Expr F × PS => x.2) s.next 0 0 c) →
          Paid (fun x : Expr F × PS => x.2) s 0 0 (Cnt.tick >>= fun _ => c >>= fun x => tparseLoop tpe prec n x.1 x.2) := by
        intro c hk hc
        obtain ⟨h1, h2⟩ := peek_next hE hp hk
        refine Paid.tick (a := -2) (e := -2) (paid_move h2 (a := 0) (e := 0) ?_ (by omega) (by omega)) (by omega) (by omega)
        exact Paid.bind (hc h1) (fun v hv => ih _ _ hv) (by omega) (by omega) (by omega)
      by_cases h1 : t.kind.isBinary = true
      · simp only [tparseLoop, if_pos hc, hp, if_pos h1]
        exact go _ (tableLevel_binary h1).2.2 fun hE1 => paid_map (p := (·.2)) ((paid_next h hE1).mono (by omega) (by omega)) (fun _ => rfl)
      · by_cases h2 : t.kind = .Lp
        · simp only [tparseLoop, if_pos hc, hp, if_neg h1, if_pos h2]
          refine go _ (by rw [h2]; decide) fun hE1 => ?_
          simp only [tparseCall]
          refine Paid.bind (paid_lists h (by decide) n hE1) (a' := 0) (e' := 0) ?_ (by omega) (by omega) (by omega)
          rintro ⟨args, s2⟩ hE2
          dsimp only at hE2 ⊢
          split
          · exact paid_pure hE2 (Nat.le_refl _) (Int.le_refl _)
          · show ((0 : Nat) : Int) ≤ _
            omega
        · by_cases h3 : t.kind = .Ls
          · simp only [tparseLoop, if_pos hc, hp, if_neg h1, if_neg h2, if_pos h3]
            refine go _ (by rw [h3]; decide) fun hE1 => ?_
            simp only [tparseIndex]
            refine Paid.bind (paid_next h hE1) (a' := 0) (e' := 0) ?_ (by omega) (by omega) (by omega)
            rintro ⟨v, s3⟩ hE3
            exact Paid.bind (paid_expect (by decide) hE3) (a' := 0) (e' := 0) (fun s2 hE2 => paid_pure hE2 (Nat.le_refl _) (Int.le_refl _)) (by omega) (by omega) (by omega)
          · by_cases h4 : t.kind = .Dot
            · simp only [tparseLoop, if_pos hc, hp, if_neg h1, if_neg h2, if_neg h3, if_pos h4]
              refine go _ (by rw [h4]; decide) fun hE1 => ?_
              simp only [tparseField]
              exact Paid.bind (paid_expect (by decide) hE1) (a' := 0) (e' := 0) (fun s2 hE2 => paid_pure hE2 (Nat.le_refl _) (Int.le_refl _)) (by omega) (by omega) (by omega)
            · refine paid_hang (tparseLoop_stuck hc ?_ _)
              intro u hu
              rw [hp] at hu
              cases hu
              exact ⟨by simpa using h1, h2, h3, h4⟩
    · simp only [tparseLoop, if_neg hc]
      exact paid_pure hE (Nat.le_refl _) (Int.le_refl _)

theorem paid_expr (n : Nat) : PaidPE (tparseExpr (F := F) n) := by
  induction n with
  | zero => intro prec s _; trivial
  | succ n ih =>
    intro prec s hE
    simp only [tparseExpr]
    refine Paid.tick (a := 0) (e := 0) ?_ (by omega) (by omega)
    refine Paid.bind (paid_prefix ih n prec hE) (a' := 0) (e' := 0) ?_ (by omega) (by omega) (by omega)
    rintro ⟨e, p, s1⟩ hE1
    exact paid_loop ih p n e s1 hE1

theorem paid_item (n : Nat) (src : Source F) {s : PS} (hE : EndsEof (s.cur :: s.rest)) (hk : s.cur.kind ≠ .Eof) :
    Paid (·.2) s 1 1 (tparseItem n src s) := by
  have hL := endsEof_tail hE hk
  unfold tparseItem
  split
  · refine paid_map (p := (·.2)) ?_ (fun _ => rfl)
    simp only [tparseRequest]
    refine Paid.bind (paid_expect (by decide) hL) (a' := 0) (e' := 0) ?_ (by omega) (by omega) (by omega)
    intro s1 hE1
    refine Paid.bind (paid_expect (by decide) hE1) (a' := 0) (e' := 0) ?_ (by omega) (by omega) (by omega)
    intro s2 hE2
    dsimp only [id] at hE2 ⊢
    split
    · rename_i hp
      exact paid_skip (paid_map (p := (·.2)) ((paid_lists (paid_expr n) (k := .Rs) (by decide) n (peekIs_live (by decide) hE2 hp)).mono (by omega) (by omega)) (fun _ => rfl))
    · exact paid_pure hE2 (Nat.le_refl _) (Int.le_refl _)
  · refine paid_map (p := (·.2)) ?_ (fun _ => rfl)
    simp only [tparseTest]
    refine Paid.bind (paid_expect (by decide) hL) (a' := 0) (e' := 0) ?_ (by omega) (by omega) (by omega)
    intro s1 hE1
    exact paid_map (p := (·.2)) ((paid_block (paid_expr n) n hE1).mono (by omega) (by omega)) (fun _ => rfl)
  · exact paid_map (p := (·.2)) (paid_expr n 0 s hE) (fun _ => rfl)

/-- Two steps for every token. -/
theorem top_steps (n k : Nat) : ∀ (src : Source F) (s : PS), EndsEof (s.cur :: s.rest) →
    (tparseTop n k src s).1 = .hang ∨ (tparseTop n k src s).2 ≤ 2 * (s.rest.length + 1) ∧
      (∀ r, (tparseTop n k src s).1 = .ok r → (tparseTop n k src s).2 ≤ 2 * s.rest.length) := by
  induction k with
  | zero => intro src s _; exact Or.inl rfl
  | succ k ih =>
    intro src s hE
    simp only [tparseTop]
    split
    · exact Or.inr ⟨Nat.zero_le _, fun _ _ => Nat.zero_le _⟩
    · rename_i hk
      have hi := paid_item n src hE hk
      rcases hx : tparseItem n src s with ⟨r, m⟩
      rw [hx] at hi
      cases r with
      | ok v =>
        obtain ⟨src1, s1⟩ := v
        obtain ⟨hE1, h1⟩ := hi
        dsimp only at h1 hE1
        obtain ⟨hE2, hl2⟩ := skipSemi_len hE1
        obtain ⟨hE3, _, hr3⟩ := next_len hE2
        have hl3 : (skipSemi s1).rest.length = (skipSemi s1).next.rest.length + 1 := by rw [hr3]; rfl
        rcases ih src1 _ hE3 with h | ⟨h, h'⟩
        · left
          simp only [Cnt.fst_bind, Cnt.fst_tick, Res.ok_bind, hx]
          exact h
        · right
          show 1 + (m + (tparseTop n k src1 (skipSemi s1).next).2) ≤ _ ∧ ∀ r, (tparseTop n k src1 (skipSemi s1).next).1 = .ok r →
            1 + (m + (tparseTop n k src1 (skipSemi s1).next).2) ≤ _
          exact ⟨by omega, fun r hr => by have := h' r hr; omega⟩
      | err e =>
        right
        have h1 : (m : Int) ≤ _ := hi
        refine ⟨?_, nofun⟩
        show 1 + m ≤ _
        omega
      | panic => exact hi.elim
      | hang => exact Or.inl rfl

end Am
