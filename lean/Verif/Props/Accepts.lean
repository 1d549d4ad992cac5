import Verif.Proofs.AcceptsConverse
import Verif.Props.Parsing
/-! # Exactly which texts are programs: C06, C79 -/
set_option linter.unusedSimpArgs false
set_option linter.unusedSectionVars false
namespace Am
open Spec
variable {F : Type} [Rt F]

theorem parse_tells (text : Str) :
    Res.Sat (fun src => ∃ is, Program (segment text) is ∧ src = is.foldl addItem ⟨[], [], []⟩) (Endless F (segment text))
      (Blames (Wrong (F := F) (segment text))) (parse (F := F) text) := by
  obtain ⟨t, r, hs, hE, hL⟩ := segment_endsEof text
  unfold parse parseFuel
  rw [hs]
  exact parseTop_tells (F := F) (n := (t :: r).length + 1) ((t :: r).length + 1) ⟨[], [], []⟩ ⟨t, r⟩ hE hL (by simp; omega) (by simp; omega)

/-- The parser is a function of the tokens, whatever token it is thought to stand on before the first one. -/
theorem parse_top (text : Str) (N : Nat) (r : Res (Source F))
    (h : ∀ n k, N ≤ n → N ≤ k → parseTop n k ⟨[], [], []⟩ (PS.mk Token.eof (segment text)).next = r) : parse text = r := by
  rw [← c06_enough_fuel text (N + (segment text).length) (by omega)]
  have h2 := h (N + (segment text).length) (N + (segment text).length) (by omega) (by omega)
  unfold parseFuel
  cases hs : segment text with
  | nil =>
    obtain ⟨t, r, h1, _⟩ := segment_endsEof text
    rw [hs] at h1; cases h1
  | cons t r => rw [hs] at h2; exact h2

/-- C79: a text is accepted exactly when its tokens are a program, and the result is made of the items of that program. -/
theorem c79_accepts (text : Str) (src : Source F) :
    parse text = .ok src ↔ ∃ is, Program (segment text) is ∧ src = is.foldl addItem ⟨[], [], []⟩ := by
  constructor
  · intro h
    have := parse_tells (F := F) text
    rw [h] at this
    exact this
  · rintro ⟨is, hp, rfl⟩
    obtain ⟨N, hN⟩ := program_done hp ⟨[], [], []⟩ Token.eof
    exact parse_top text N _ hN

/-- C06 (partial): exactly the texts on which the parser does not return. The full claim, that there are none, is false
(`c06_parse_loops`). -/
theorem c06_exact_partial (text : Str) : parse (F := F) text = .hang ↔ Endless F (segment text) := by
  constructor
  · intro h
    have := parse_tells (F := F) text
    rw [h] at this
    exact this
  · intro h
    obtain ⟨N, hN⟩ := endless_hangs h ⟨[], [], []⟩ Token.eof
    exact parse_top text N _ hN

/-- C79: every other text is rejected with a message. -/
theorem c79_rejects (text : Str) :
    (∃ m, parse (F := F) text = .err m) ↔ (¬ ∃ is : List (Item F), Program (segment text) is) ∧ ¬ Endless F (segment text) := by
  constructor
  · rintro ⟨m, h⟩
    refine ⟨?_, ?_⟩
    · rintro ⟨is, hp⟩
      have := (c79_accepts text _).2 ⟨is, hp, rfl⟩
      rw [this] at h; cases h
    · intro he
      rw [(c06_exact_partial text).2 he] at h; cases h
  · rintro ⟨h1, h2⟩
    have hs := parse_tells (F := F) text
    cases hp : parse (F := F) text with
    | ok src => rw [hp] at hs; obtain ⟨is, hi, _⟩ := hs; exact (h1 ⟨is, hi⟩).elim
    | err m => exact ⟨m, rfl⟩
    | panic => rw [hp] at hs; exact hs.elim
    | hang => rw [hp] at hs; exact (h2 hs).elim

theorem whole_unique {p : Nat} {ts rest rest' : List Token} {e e' : Expr F} (h : Whole p ts e rest) (h' : Whole p ts e' rest') :
    e = e' ∧ rest = rest' := by
  obtain ⟨c, N, hN⟩ := whole_done h Token.eof
  obtain ⟨c', N', hN'⟩ := whole_done h' Token.eof
  have h1 := hN (N + N') (by omega)
  rw [hN' (N + N') (by omega)] at h1
  injection h1 with h1
  injection h1 with h2 h3
  injection h3 with h4 h5
  exact ⟨h2.symm, h5.symm⟩

theorem items_unique {k : Kind} (hk : Closing k) {ts rest rest' : List Token} {es es' : List (Expr F)} (h : Items k ts es rest)
    (h' : Items k ts es' rest') : es = es' ∧ rest = rest' := by
  obtain ⟨c, N, hN⟩ := items_done hk h Token.eof
  obtain ⟨c', N', hN'⟩ := items_done hk h' Token.eof
  have h1 := hN (N + N') (N + N') (by omega) (by omega)
  rw [hN' (N + N') (N + N') (by omega) (by omega)] at h1
  injection h1 with h1
  injection h1 with h2 h3
  injection h3 with h4 h5
  exact ⟨h2.symm, h5.symm⟩

theorem stmts_unique {ts rest rest' : List Token} {es es' : List (Expr F)} (h : Stmts ts es rest)
    (h' : Stmts ts es' rest') : es = es' ∧ rest = rest' := by
  obtain ⟨c, N, hN⟩ := stmts_done h Token.eof
  obtain ⟨c', N', hN'⟩ := stmts_done h' Token.eof
  have h1 := hN (N + N') (N + N') (by omega) (by omega)
  rw [hN' (N + N') (N + N') (by omega) (by omega)] at h1
  injection h1 with h1
  injection h1 with h2 h3
  injection h3 with h4 h5
  exact ⟨h2.symm, h5.symm⟩

theorem oneItem_unique {ts rest rest' : List Token} {i i' : Item F} (h : OneItem ts i rest) (h' : OneItem ts i' rest') :
    i = i' ∧ rest = rest' := by
  obtain ⟨c, N, hN⟩ := item_done h Token.eof
  obtain ⟨c', N', hN'⟩ := item_done h' Token.eof
  have h1 := hN (N + N') ⟨[], [], []⟩ (by omega)
  rw [hN' (N + N') ⟨[], [], []⟩ (by omega)] at h1
  injection h1 with h1
  injection h1 with h2 h3
  injection h3 with h4 h5
  refine ⟨?_, h5.symm⟩
  cases i <;> cases i' <;> simp [addItem, amInsert] at h2 <;> simp [h2]

/-- C79: the language is unambiguous: a token list is a program in at most one way. -/
theorem c79_unique {ts : List Token} {is is' : List (Item F)} (h : Program ts is) (h' : Program ts is') : is = is' := by
  induction h generalizing is' with
  | nil t ht =>
    match h' with
    | .nil _ _ => rfl
    | .cons i is _ us hi hp =>
      obtain ⟨t', r, h1, h2⟩ := oneItem_start hi
      injection h1 with h1 _
      subst h1
      exact (h2 ht).elim
  | cons i is ts us hi _ ih =>
    match h' with
    | .nil t ht =>
      obtain ⟨t', r, h1, h2⟩ := oneItem_start hi
      injection h1 with h1 _
      subst h1
      exact (h2 ht).elim
    | .cons _ _ _ _ hi' hp' =>
      obtain ⟨rfl, rfl⟩ := oneItem_unique hi hi'
      rw [ih hp']

/-- C79: no text is both a program and endless. -/
theorem c79_disjoint (text : Str) (is : List (Item F)) (h : Program (segment text) is) : ¬ Endless F (segment text) := by
  intro he
  have h1 := (c79_accepts text _).2 ⟨is, h, rfl⟩
  rw [(c06_exact_partial text).2 he] at h1
  cases h1

/-- `a!` is endless: the operand `a` is followed by `!`. -/
example : Endless F (segment c!"a!") :=
  .expr _ (.stuck _ _ ⟨.Not, c!"!"⟩ _ _ _ _ _ (.ident 0 ⟨.Ident, c!"a"⟩ _ rfl) (.nil _ _ _) (by decide) rfl)

/-- `x; [-b!]` is endless, deep inside the second item. -/
example : Endless F (segment c!"x; [-b!]") :=
  .next _ _ _ (.expr _ _ _ (.mk 0 _ _ _ _ _ _ (.ident 0 ⟨.Ident, c!"x"⟩ _ rfl) (.nil _ _ _) ⟨⟨.Semi, c!";"⟩, _, rfl, by decide⟩))
    (.expr _ (.inside _ _ _ _ (.arr _ ⟨.Ls, c!"["⟩ _ _ rfl (.here _ ⟨_, _, rfl, by decide⟩))
      (.stuck _ _ ⟨.Not, c!"!"⟩ _ _ _ _ _
        (.unary 0 ⟨.Sub, c!"-"⟩ _ _ _ (Or.inr rfl)
          (.mk 11 _ _ _ _ _ _ (.ident 11 ⟨.Ident, c!"b"⟩ _ rfl) (.nil _ _ _) ⟨_, _, rfl, by decide⟩))
        (.nil _ _ _) (by decide) rfl)))

/-- `a - b * c` is a program: the right operand of `-` takes in `* c`. -/
example : Program (F := F) (segment c!"a - b * c")
    [.expr (.binary ⟨.Sub, c!"-"⟩ (.ident c!"a") (.binary ⟨.Mul, c!"*"⟩ (.ident c!"b") (.ident c!"c")))] :=
  .cons _ _ _ _ (.expr _ _ _ (.mk 0 _ _ _ _ _ _ (.ident 0 ⟨.Ident, c!"a"⟩ _ rfl)
    (.binary _ ⟨.Sub, c!"-"⟩ _ _ _ _ _ _ (by decide)
      (.mk _ _ _ _ _ _ _ (.ident _ ⟨.Ident, c!"b"⟩ _ rfl)
        (.binary _ ⟨.Mul, c!"*"⟩ _ _ _ _ _ _ (by decide)
          (.mk _ _ _ _ _ _ _ (.ident _ ⟨.Ident, c!"c"⟩ _ rfl) (.nil _ _ _) ⟨Token.eof, _, rfl, by decide⟩) (.nil _ _ _))
        ⟨_, _, rfl, by decide⟩)
      (.nil _ _ _))
    ⟨_, _, rfl, by decide⟩)) (.nil _ rfl)

/-- `(a` is neither. -/
example : (¬ ∃ is : List (Item F), Program (segment c!"(a") is) ∧ ¬ Endless F (segment c!"(a") := (c79_rejects _).1 ⟨_, rfl⟩

end Am
