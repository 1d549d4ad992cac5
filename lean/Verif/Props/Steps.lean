import Verif.Proofs.Steps
import Verif.Spec.Steps
import Verif.Props.Parsing
/-! # C103: how long reading a text takes -/
set_option linter.unusedSimpArgs false
set_option linter.unusedSectionVars false
namespace Am
open Spec
variable {F : Type} [Rt F]

/-- C103: the counting parser gives the results of the parser. -/
theorem c103_same (text : Str) : (tparse (F := F) text).1 = parse text := by
  obtain ⟨t, r, hs, _, _⟩ := segment_endsEof text
  simp only [tparse, parse, parseFuel, hs, List.length_cons]
  exact same_top _ _ _ _

/-- C103 (partial). Reading a text takes at most two steps for every token, the end marker included, unless it does not end at all.
The full claim has no exception; it is false (`c103_false`). -/
theorem c103_steps_partial (text : Str) (h : parse (F := F) text ≠ .hang) : (tparse (F := F) text).2 ≤ 2 * (segment text).length := by
  rw [← c103_same] at h
  obtain ⟨t, r, hs, hE, _⟩ := segment_endsEof text
  simp only [tparse, hs] at h ⊢
  rcases top_steps (F := F) (r.length + 2) (r.length + 2) ⟨[], [], []⟩ ⟨t, r⟩ hE with h' | ⟨h', _⟩
  · exact absurd h' h
  · exact h'

/-- Every token but the end marker takes a character of the text. -/
theorem segment_short (text : Str) : (segment text).length ≤ text.length + 1 := by
  induction text using lex_induction with
  | hnil => exact Nat.le_refl 1
  | hws c cs h ih => rw [segment_ws c cs h, List.length_cons]; omega
  | htok c cs h ih =>
    have := lexOne_length c cs h
    rw [segment_tok c cs h, List.length_cons, List.length_cons]
    omega

/-- C103 (partial): in characters. The full claim has no exception. -/
theorem c103_chars_partial (text : Str) (h : parse (F := F) text ≠ .hang) : (tparse (F := F) text).2 ≤ 2 * (text.length + 1) := by
  have h1 := c103_steps_partial text h
  have h2 := segment_short text
  omega

/-! ## Exactly how many steps -/

theorem Cnt.bind_ok {α β : Type} {x : Cnt α} {f : α → Cnt β} {b : β} {n : Nat} (h : (x >>= f) = (.ok b, n)) :
    ∃ a i j, x = (.ok a, i) ∧ f a = (.ok b, j) ∧ n = i + j := by
  obtain ⟨r, i⟩ := x
  cases r with
  | ok a =>
    have h' : ((f a).1, i + (f a).2) = (Res.ok b, n) := h
    rw [Prod.mk.injEq] at h'
    exact ⟨a, i, (f a).2, rfl, Prod.ext h'.1 rfl, h'.2.symm⟩
  | err m => exact nomatch congrArg Prod.fst h
  | panic => exact nomatch congrArg Prod.fst h
  | hang => exact nomatch congrArg Prod.fst h

theorem Cnt.free_ok {α : Type} {r : Res α} {a : α} {n : Nat} (h : Cnt.free r = (.ok a, n)) : r = .ok a ∧ n = 0 := by
  have h' : (r, 0) = (Res.ok a, n) := h
  rw [Prod.mk.injEq] at h'
  exact ⟨h'.1, h'.2.symm⟩

theorem Cnt.pure_ok {α : Type} {a b : α} {n : Nat} (h : (Pure.pure a : Cnt α) = (.ok b, n)) : b = a ∧ n = 0 := by
  have h' : (Res.ok a, 0) = (Res.ok b, n) := h
  simp only [Prod.mk.injEq, Res.ok.injEq] at h'
  exact ⟨h'.1.symm, h'.2.symm⟩

theorem Cnt.tick_ok {u : Unit} {n : Nat} (h : Cnt.tick = (.ok u, n)) : n = 1 := (congrArg Prod.snd h).symm

/-- A recursive call that takes as many steps as its result is worth. -/
def Worth (tpe : TPE F) : Prop := ∀ prec s e s' n, tpe prec s = (.ok (e, s'), n) → n = worth e

theorem worth_list {tpe : TPE F} (h : Worth tpe) (k : Kind) (m : Nat) : ∀ s es s' n, tparseListLoop tpe k m s = (.ok (es, s'), n) → n = worthAll es := by
  induction m with
  | zero => intro s es s' n hr; exact nomatch congrArg Prod.fst hr
  | succ m ih =>
    intro s es s' n hr
    simp only [tparseListLoop] at hr
    split at hr
    · obtain ⟨hv, hn⟩ := Cnt.pure_ok hr
      cases hv
      exact hn
    · obtain ⟨_, i1, j1, h1, hr, hq⟩ := Cnt.bind_ok hr
      obtain ⟨⟨e, s1⟩, i2, j2, h2, hr, hq⟩ := Cnt.bind_ok hr
      have e1 := Cnt.tick_ok h1
      have e2 := h _ _ _ _ _ h2
      have fin : ∀ s2 n, (do
          let (es, s) ← tparseListLoop tpe k m s2
          Pure.pure (e :: es, s) : Cnt (List (Expr F) × PS)) = (.ok (es, s'), n) → 1 + worth e + n = worthAll es := by
        intro s2 n hr
        obtain ⟨⟨es1, s3⟩, i3, j3, h3, hr, hq⟩ := Cnt.bind_ok hr
        obtain ⟨hv, hn⟩ := Cnt.pure_ok hr
        cases hv
        have := ih _ _ _ _ h3
        simp only [worthAll]
        omega
      split at hr
      · obtain ⟨s2, i3, j3, h3, hr, hq⟩ := Cnt.bind_ok hr
        have := (Cnt.pure_ok h3).2
        have := fin _ _ hr
        omega
      · obtain ⟨s2, i3, j3, h3, hr, hq⟩ := Cnt.bind_ok hr
        have := (Cnt.free_ok h3).2
        have := fin _ _ hr
        omega

theorem worth_lists {tpe : TPE F} (h : Worth tpe) {k : Kind} {m : Nat} {s : PS} {es : List (Expr F)} {s' : PS} {n : Nat}
    (hr : tparseList tpe m k s = (.ok (es, s'), n)) : n = worthAll es := by
  simp only [tparseList] at hr
  obtain ⟨⟨es1, s1⟩, i1, j1, h1, hr, hq⟩ := Cnt.bind_ok hr
  obtain ⟨s2, i2, j2, h2, hr, hq⟩ := Cnt.bind_ok hr
  obtain ⟨hv, hn⟩ := Cnt.pure_ok hr
  cases hv
  have := worth_list h k m _ _ _ _ h1
  have := (Cnt.free_ok h2).2
  show n = worthAll es1
  omega

theorem worth_pairs {tpe : TPE F} (h : Worth tpe) (m : Nat) : ∀ s ps s' n, tparsePairsLoop tpe m s = (.ok (ps, s'), n) → n = worthPairs ps := by
  induction m with
  | zero => intro s es s' n hr; exact nomatch congrArg Prod.fst hr
  | succ m ih =>
    intro s ps s' n hr
    simp only [tparsePairsLoop] at hr
    split at hr
    · obtain ⟨hv, hn⟩ := Cnt.pure_ok hr
      cases hv
      exact hn
    · obtain ⟨_, i1, j1, h1, hr, hq⟩ := Cnt.bind_ok hr
      obtain ⟨⟨a, s1⟩, i2, j2, h2, hr, hq⟩ := Cnt.bind_ok hr
      obtain ⟨s2, i3, j3, h3, hr, hq⟩ := Cnt.bind_ok hr
      obtain ⟨⟨b, s3⟩, i4, j4, h4, hr, hq⟩ := Cnt.bind_ok hr
      have e1 := Cnt.tick_ok h1
      have e2 := h _ _ _ _ _ h2
      have e3 := (Cnt.free_ok h3).2
      have e4 := h _ _ _ _ _ h4
      have fin : ∀ s2 n, (do
          let (ps, s) ← tparsePairsLoop tpe m s2
          Pure.pure ((a, b) :: ps, s) : Cnt (List (Expr F × Expr F) × PS)) = (.ok (ps, s'), n) → 1 + worth a + worth b + n = worthPairs ps := by
        intro s2 n hr
        obtain ⟨⟨es1, s3⟩, i3, j3, h3, hr, hq⟩ := Cnt.bind_ok hr
        obtain ⟨hv, hn⟩ := Cnt.pure_ok hr
        cases hv
        have := ih _ _ _ _ h3
        simp only [worthPairs]
        omega
      split at hr
      · obtain ⟨s2, i3, j3, h3, hr, hq⟩ := Cnt.bind_ok hr
        have := (Cnt.pure_ok h3).2
        have := fin _ _ hr
        omega
      · obtain ⟨s2, i3, j3, h3, hr, hq⟩ := Cnt.bind_ok hr
        have := (Cnt.free_ok h3).2
        have := fin _ _ hr
        omega

theorem worth_blockLoop {tpe : TPE F} (h : Worth tpe) (m : Nat) : ∀ s es s' n, tparseBlockLoop tpe m s = (.ok (es, s'), n) → n = worthAll es := by
  induction m with
  | zero => intro s es s' n hr; exact nomatch congrArg Prod.fst hr
  | succ m ih =>
    intro s es s' n hr
    simp only [tparseBlockLoop] at hr
    split at hr
    · obtain ⟨hv, hn⟩ := Cnt.pure_ok hr
      cases hv
      exact hn
    · obtain ⟨_, i1, j1, h1, hr, hq⟩ := Cnt.bind_ok hr
      obtain ⟨⟨e, s1⟩, i2, j2, h2, hr, hq⟩ := Cnt.bind_ok hr
      obtain ⟨⟨es1, s3⟩, i3, j3, h3, hr, hq⟩ := Cnt.bind_ok hr
      obtain ⟨hv, hn⟩ := Cnt.pure_ok hr
      cases hv
      have e1 := Cnt.tick_ok h1
      have e2 := h _ _ _ _ _ h2
      have e3 := ih _ _ _ _ h3
      simp only [worthAll]
      omega

theorem worth_block {tpe : TPE F} (h : Worth tpe) {m : Nat} {s : PS} {es : List (Expr F)} {s' : PS} {n : Nat}
    (hr : tparseBlock tpe m s = (.ok (es, s'), n)) : n = worthAll es := by
  simp only [tparseBlock] at hr
  obtain ⟨s1, i1, j1, h1, hr, hq⟩ := Cnt.bind_ok hr
  obtain ⟨⟨es1, s2⟩, i2, j2, h2, hr, hq⟩ := Cnt.bind_ok hr
  obtain ⟨s3, i3, j3, h3, hr, hq⟩ := Cnt.bind_ok hr
  obtain ⟨hv, hn⟩ := Cnt.pure_ok hr
  cases hv
  have := worth_blockLoop h m _ _ _ _ h2
  have := (Cnt.free_ok h1).2
  have := (Cnt.free_ok h3).2
  show n = worthAll es1
  omega

theorem worth_if {tpe : TPE F} (h : Worth tpe) {m : Nat} {s : PS} {e : Expr F} {s' : PS} {n : Nat}
    (hr : tparseIf tpe m s = (.ok (e, s'), n)) : n + 1 = worth e := by
  simp only [tparseIf] at hr
  obtain ⟨s1, i1, j1, h1, hr, hq⟩ := Cnt.bind_ok hr
  obtain ⟨⟨c, s2⟩, i2, j2, h2, hr, hq⟩ := Cnt.bind_ok hr
  obtain ⟨s3, i3, j3, h3, hr, hq⟩ := Cnt.bind_ok hr
  obtain ⟨⟨t, s4⟩, i4, j4, h4, hr, hq⟩ := Cnt.bind_ok hr
  have e1 := (Cnt.free_ok h1).2
  have e2 := h _ _ _ _ _ h2
  have e3 := (Cnt.free_ok h3).2
  have e4 := worth_block h h4
  split at hr
  · obtain ⟨⟨t', s5⟩, i5, j5, h5, hr, hq⟩ := Cnt.bind_ok hr
    obtain ⟨hv, hn⟩ := Cnt.pure_ok hr
    cases hv
    have e5 := worth_block h h5
    simp only [worth]
    omega
  · obtain ⟨hv, hn⟩ := Cnt.pure_ok hr
    cases hv
    simp only [worth, worthAll]
    omega

theorem worth_prefix {tpe : TPE F} (h : Worth tpe) {m prec : Nat} {s : PS} {e : Expr F} {p : Nat} {s' : PS} {n : Nat}
    (hr : tparsePrefix tpe m prec s = (.ok (e, p, s'), n)) : n + 1 = worth e := by
  unfold tparsePrefix at hr
  split at hr
  · obtain ⟨hv, hn⟩ := Cnt.pure_ok hr
    cases hv
    simp only [worth, hn]
  · obtain ⟨e1, i1, j1, h1, hr, hq⟩ := Cnt.bind_ok hr
    obtain ⟨hv, hn⟩ := Cnt.pure_ok hr
    cases hv
    obtain ⟨h2, h3⟩ := Cnt.free_ok h1
    unfold parseInteger at h2
    split at h2
    · cases h2; simp only [worth]; omega
    · cases h2
  · obtain ⟨e1, i1, j1, h1, hr, hq⟩ := Cnt.bind_ok hr
    obtain ⟨hv, hn⟩ := Cnt.pure_ok hr
    cases hv
    obtain ⟨h2, h3⟩ := Cnt.free_ok h1
    unfold parseFloat at h2
    split at h2
    · cases h2; simp only [worth]; omega
    · cases h2
  · obtain ⟨e1, i1, j1, h1, hr, hq⟩ := Cnt.bind_ok hr
    obtain ⟨hv, hn⟩ := Cnt.pure_ok hr
    cases hv
    obtain ⟨h2, h3⟩ := Cnt.free_ok h1
    unfold parseBoolean at h2
    split at h2
    · cases h2; simp only [worth]; omega
    · cases h2
  · obtain ⟨e1, i1, j1, h1, hr, hq⟩ := Cnt.bind_ok hr
    obtain ⟨hv, hn⟩ := Cnt.pure_ok hr
    cases hv
    obtain ⟨h2, h3⟩ := Cnt.free_ok h1
    unfold parseBoolean at h2
    split at h2
    · cases h2; simp only [worth]; omega
    · cases h2
  · obtain ⟨hv, hn⟩ := Cnt.pure_ok hr
    cases hv
    simp only [worth, hn]
  · obtain ⟨⟨e1, s1⟩, i1, j1, h1, hr, hq⟩ := Cnt.bind_ok hr
    obtain ⟨hv, hn⟩ := Cnt.pure_ok hr
    cases hv
    simp only [tparseLet] at h1
    obtain ⟨_, i2, j2, h2, h1, hq⟩ := Cnt.bind_ok h1
    obtain ⟨_, i3, j3, h3, h1, hq⟩ := Cnt.bind_ok h1
    obtain ⟨⟨v, s4⟩, i4, j4, h4, h1, hq⟩ := Cnt.bind_ok h1
    obtain ⟨hv, hn'⟩ := Cnt.pure_ok h1
    cases hv
    have := (Cnt.free_ok h2).2
    have := (Cnt.free_ok h3).2
    have := h _ _ _ _ _ h4
    simp only [worth]
    omega
  · obtain ⟨⟨e1, s1⟩, i1, j1, h1, hr, hq⟩ := Cnt.bind_ok hr
    obtain ⟨hv, hn⟩ := Cnt.pure_ok hr
    cases hv
    simp only [tparseUnary] at h1
    obtain ⟨⟨v, s4⟩, i4, j4, h4, h1, hq⟩ := Cnt.bind_ok h1
    obtain ⟨hv, hn'⟩ := Cnt.pure_ok h1
    cases hv
    have := h _ _ _ _ _ h4
    simp only [worth]
    omega
  · obtain ⟨⟨e1, s1⟩, i1, j1, h1, hr, hq⟩ := Cnt.bind_ok hr
    obtain ⟨hv, hn⟩ := Cnt.pure_ok hr
    cases hv
    simp only [tparseUnary] at h1
    obtain ⟨⟨v, s4⟩, i4, j4, h4, h1, hq⟩ := Cnt.bind_ok h1
    obtain ⟨hv, hn'⟩ := Cnt.pure_ok h1
    cases hv
    have := h _ _ _ _ _ h4
    simp only [worth]
    omega
  · obtain ⟨⟨e1, s1⟩, i1, j1, h1, hr, hq⟩ := Cnt.bind_ok hr
    obtain ⟨hv, hn⟩ := Cnt.pure_ok hr
    cases hv
    simp only [tparseParen] at h1
    obtain ⟨⟨v, s4⟩, i4, j4, h4, h1, hq⟩ := Cnt.bind_ok h1
    obtain ⟨_, i3, j3, h3, h1, hq⟩ := Cnt.bind_ok h1
    obtain ⟨hv, hn'⟩ := Cnt.pure_ok h1
    cases hv
    have := h _ _ _ _ _ h4
    have := (Cnt.free_ok h3).2
    simp only [worth]
    omega
  · obtain ⟨⟨e1, s1⟩, i1, j1, h1, hr, hq⟩ := Cnt.bind_ok hr
    obtain ⟨hv, hn⟩ := Cnt.pure_ok hr
    cases hv
    have := worth_if h h1
    omega
  · obtain ⟨⟨e1, s1⟩, i1, j1, h1, hr, hq⟩ := Cnt.bind_ok hr
    obtain ⟨hv, hn⟩ := Cnt.pure_ok hr
    cases hv
    simp only [tparseArray] at h1
    obtain ⟨⟨v, s4⟩, i4, j4, h4, h1, hq⟩ := Cnt.bind_ok h1
    obtain ⟨hv, hn'⟩ := Cnt.pure_ok h1
    cases hv
    have := worth_lists h h4
    simp only [worth]
    omega
  · obtain ⟨⟨e1, s1⟩, i1, j1, h1, hr, hq⟩ := Cnt.bind_ok hr
    obtain ⟨hv, hn⟩ := Cnt.pure_ok hr
    cases hv
    simp only [tparseMap] at h1
    obtain ⟨⟨v, s4⟩, i4, j4, h4, h1, hq⟩ := Cnt.bind_ok h1
    obtain ⟨_, i3, j3, h3, h1, hq⟩ := Cnt.bind_ok h1
    obtain ⟨hv, hn'⟩ := Cnt.pure_ok h1
    cases hv
    have := worth_pairs h _ _ _ _ _ h4
    have := (Cnt.free_ok h3).2
    simp only [worth]
    omega
  · exact nomatch (Cnt.free_ok hr).1

theorem worth_loop {tpe : TPE F} (h : Worth tpe) (prec m : Nat) : ∀ left s e s' n, tparseLoop tpe prec m left s = (.ok (e, s'), n) →
    worth left + n = worth e := by
  induction m with
  | zero => intro left s e s' n hr; exact nomatch congrArg Prod.fst hr
  | succ m ih =>
    intro left s e s' n hr
    by_cases hc : (!s.peekIs .Semi && decide (prec < s.peekPrec)) = true
    · have go : ∀ (c : Cnt (Expr F × PS)), (∀ e1 s1 i, c = (.ok (e1, s1), i) → worth left + 1 + i = worth e1) →
          (Cnt.tick >>= fun _ => c >>= fun x => tparseLoop tpe prec m x.1 x.2) = (.ok (e, s'), n) → worth left + n = worth e := by
        intro c hc hr
        obtain ⟨_, i1, j1, h1, hr, hq⟩ := Cnt.bind_ok hr
        obtain ⟨⟨e1, s1⟩, i2, j2, h2, hr, hq⟩ := Cnt.bind_ok hr
        have e1 := Cnt.tick_ok h1
        have e2 := hc _ _ _ h2
        have e3 := ih _ _ _ _ _ hr
        dsimp only at e3
        omega
      have stuck : s.peek = none ∨ (∃ t, s.peek = some t ∧ t.kind.isBinary = false ∧ t.kind ≠ .Lp ∧ t.kind ≠ .Ls ∧ t.kind ≠ .Dot) → False := by
        intro hp
        have := tparseLoop_stuck (tpe := tpe) (left := left) hc (by
          intro t ht
          rcases hp with hp | ⟨u, hp, h1⟩
          · rw [hp] at ht; cases ht
          · rw [hp] at ht; cases ht; exact h1) (m + 1)
        rw [hr] at this
        cases this
      cases hp : s.peek with
      | none => exact (stuck (Or.inl hp)).elim
      | some t =>
        by_cases h1 : t.kind.isBinary = true
        · simp only [tparseLoop, if_pos hc, hp, if_pos h1] at hr
          refine go _ ?_ hr
          intro e1 s1 i h1
          simp only [tparseBinary] at h1
          obtain ⟨⟨v, s4⟩, i4, j4, h4, h1, hq⟩ := Cnt.bind_ok h1
          obtain ⟨hv, hn'⟩ := Cnt.pure_ok h1
          cases hv
          have := h _ _ _ _ _ h4
          simp only [worth]
          omega
        · by_cases h2 : t.kind = .Lp
          · simp only [tparseLoop, if_pos hc, hp, if_neg h1, if_pos h2] at hr
            refine go _ ?_ hr
            intro e1 s1 i h1
            simp only [tparseCall] at h1
            obtain ⟨⟨v, s4⟩, i4, j4, h4, h1, hq⟩ := Cnt.bind_ok h1
            have := worth_lists h h4
            split at h1
            · obtain ⟨hv, hn'⟩ := Cnt.pure_ok h1
              cases hv
              simp only [worth]
              omega
            · exact nomatch (Cnt.free_ok h1).1
          · by_cases h3 : t.kind = .Ls
            · simp only [tparseLoop, if_pos hc, hp, if_neg h1, if_neg h2, if_pos h3] at hr
              refine go _ ?_ hr
              intro e1 s1 i h1
              simp only [tparseIndex] at h1
              obtain ⟨⟨v, s4⟩, i4, j4, h4, h1, hq⟩ := Cnt.bind_ok h1
              obtain ⟨_, i3, j3, h3, h1, hq⟩ := Cnt.bind_ok h1
              obtain ⟨hv, hn'⟩ := Cnt.pure_ok h1
              cases hv
              have := h _ _ _ _ _ h4
              have := (Cnt.free_ok h3).2
              simp only [worth]
              omega
            · by_cases h4 : t.kind = .Dot
              · simp only [tparseLoop, if_pos hc, hp, if_neg h1, if_neg h2, if_neg h3, if_pos h4] at hr
                refine go _ ?_ hr
                intro e1 s1 i h1
                simp only [tparseField] at h1
                obtain ⟨_, i3, j3, h3, h1, hq⟩ := Cnt.bind_ok h1
                obtain ⟨hv, hn'⟩ := Cnt.pure_ok h1
                cases hv
                have := (Cnt.free_ok h3).2
                simp only [worth]
                omega
              · exact (stuck (Or.inr ⟨t, hp, by simpa using h1, h2, h3, h4⟩)).elim
    · simp only [tparseLoop, if_neg hc] at hr
      obtain ⟨hv, hn⟩ := Cnt.pure_ok hr
      cases hv
      omega

theorem worth_expr (m : Nat) : Worth (tparseExpr (F := F) m) := by
  induction m with
  | zero => intro prec s e s' n hr; exact nomatch congrArg Prod.fst hr
  | succ m ih =>
    intro prec s e s' n hr
    simp only [tparseExpr] at hr
    obtain ⟨_, i1, j1, h1, hr, hq⟩ := Cnt.bind_ok hr
    obtain ⟨⟨l, p, s1⟩, i2, j2, h2, hr, hq⟩ := Cnt.bind_ok hr
    have := Cnt.tick_ok h1
    have := worth_prefix ih h2
    have := worth_loop ih p m _ _ _ _ _ hr
    dsimp only at this
    omega

theorem worthAll_append (a b : List (Expr F)) : worthAll (a ++ b) = worthAll a + worthAll b := by
  induction a with
  | nil => simp only [List.nil_append, worthAll, Nat.zero_add]
  | cons e l ih => simp only [List.cons_append, worthAll, ih]; omega

theorem amInsert_nonempty {V : Type} (k : Str) (v : V) (m : List (Str × V)) : amInsert k v m ≠ [] := by
  cases m with
  | nil => simp [amInsert]
  | cons p l => obtain ⟨a, b⟩ := p; simp only [amInsert]; split <;> nofun

theorem worth_top (m k : Nat) : ∀ (src : Source F) s src' n, tparseTop m k src s = (.ok src', n) → 
    (src.requests ≠ [] → src'.requests ≠ []) ∧ (src.tests ≠ [] → src'.tests ≠ []) ∧
    (src'.requests = [] → src'.tests = [] → worthAll src.exprs + n = worthAll src'.exprs) := by
  induction k with
  | zero => intro src s src' n hr; exact nomatch congrArg Prod.fst hr
  | succ k ih =>
    intro src s src' n hr
    simp only [tparseTop] at hr
    split at hr
    · obtain ⟨hv, hn⟩ := Cnt.pure_ok hr
      subst hv
      exact ⟨id, id, fun _ _ => by omega⟩
    · obtain ⟨_, i1, j1, h1, hr, hq⟩ := Cnt.bind_ok hr
      obtain ⟨⟨src1, s1⟩, i2, j2, h2, hr, hq⟩ := Cnt.bind_ok hr
      obtain ⟨a1, a2, a3⟩ := ih _ _ _ _ hr
      have e1 := Cnt.tick_ok h1
      unfold tparseItem at h2
      split at h2
      · obtain ⟨⟨⟨a, b, c⟩, s2⟩, i3, j3, h3, h2, hq⟩ := Cnt.bind_ok h2
        obtain ⟨hv, hn⟩ := Cnt.pure_ok h2
        cases hv
        have := a1 (amInsert_nonempty _ _ _)
        exact ⟨fun _ => this, a2, fun h => absurd h this⟩
      · obtain ⟨⟨⟨a, b⟩, s2⟩, i3, j3, h3, h2, hq⟩ := Cnt.bind_ok h2
        obtain ⟨hv, hn⟩ := Cnt.pure_ok h2
        cases hv
        have := a2 (amInsert_nonempty _ _ _)
        exact ⟨a1, fun _ => this, fun _ h => absurd h this⟩
      · obtain ⟨⟨e, s2⟩, i3, j3, h3, h2, hq⟩ := Cnt.bind_ok h2
        obtain ⟨hv, hn⟩ := Cnt.pure_ok h2
        cases hv
        have e2 := worth_expr m _ _ _ _ _ h3
        refine ⟨a1, a2, fun x y => ?_⟩
        have := a3 x y
        rw [worthAll_append] at this
        simp only [worthAll] at this
        omega

/-- C103: a text of expressions is read in exactly as many steps as its expressions are worth. -/
theorem c103_exact (text : Str) (es : List (Expr F)) (h : parse text = .ok ⟨es, [], []⟩) : (tparse (F := F) text).2 = worthAll es := by
  have hs := c103_same (F := F) text
  rw [h] at hs
  obtain ⟨t, r, hg, _, _⟩ := segment_endsEof text
  rcases hx : tparse (F := F) text with ⟨x, n⟩
  rw [hx] at hs
  dsimp only at hs
  subst hs
  simp only [tparse, hg] at hx
  have := (worth_top _ _ _ _ _ _ hx).2.2 rfl rfl
  simp only [worthAll] at this
  omega

/-- C103 is false: reading these two tokens does not end. -/
theorem c103_false : parse (F := F) c!"a!" = .hang := rfl

/-- Two steps for every token are needed: three numbers, six steps, and the end marker. -/
example : (tparse (F := F) c!"1 2 3").2 = 6 ∧ (segment c!"1 2 3").length = 4 := ⟨rfl, rfl⟩

/-- Nested brackets are read once: ten steps for nine tokens and the end marker. -/
example : (tparse (F := F) c!"[[[[1]]]]").2 = 10 ∧ (segment c!"[[[[1]]]]").length = 10 := ⟨rfl, rfl⟩

/-- An error is found within the bound. -/
example : (tparse (F := F) c!"[1, 2 3]").2 = 6 ∧ (segment c!"[1, 2 3]").length = 7 := ⟨rfl, rfl⟩

end Am
