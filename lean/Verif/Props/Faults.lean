import Verif.Proofs.FaultSites
/-! # A syntax error names the first token that does not fit: C84 -/
set_option linter.unusedSimpArgs false
set_option linter.unusedSectionVars false
namespace Am
open Spec
variable {F : Type} [Rt F]

/-- C84: exactly the texts that are rejected, and exactly what is said about them. -/
theorem c84_message (text : Str) (m : Str) :
    parse (F := F) text = .err m ↔ ∃ (why : Fault F) (t : Token) (r : List Token), Wrong (segment text) why (t :: r) ∧ m = why.text t := by
  constructor
  · intro h
    have := parse_tells (F := F) text
    rw [h] at this
    exact this
  · rintro ⟨why, t, r, hw, rfl⟩
    obtain ⟨N, hN⟩ := wrong_fails hw ⟨[], [], []⟩ Token.eof
    refine parse_top text N _ fun n k hn hk => ?_
    obtain ⟨f, ⟨t', r', h1, h2⟩, h3⟩ := hN n k hn hk
    cases h1
    rw [h3, h2]
    rfl

/-- C84: there is one reason at most. -/
theorem c84_message_unique (text : Str) (why why' : Fault F) (t t' : Token) (r r' : List Token) (h : Wrong (segment text) why (t :: r))
    (h' : Wrong (segment text) why' (t' :: r')) : why.text t = why'.text t' := by
  have h1 := (c84_message (F := F) text _).2 ⟨why, t, r, h, rfl⟩
  rw [(c84_message (F := F) text _).2 ⟨why', t', r', h', rfl⟩] at h1
  injection h1 with h1
  exact h1.symm

/-- There is one first misfit at most. -/
theorem c84_unique {ts pre pre' : List Token} {t t' : Token} (h : FirstMisfit F ts pre t) (h' : FirstMisfit F ts pre' t') :
    pre = pre' ∧ t = t' := by
  have shorter : ∀ {pre pre' : List Token} {t t' : Token}, FirstMisfit F ts pre t → FirstMisfit F ts pre' t' → ¬ pre.length < pre'.length := by
    intro pre pre' t t' h h' hl
    have h1 : pre ++ [t] <+: pre' :=
      List.prefix_of_prefix_length_le h.1 ((List.prefix_append pre' [t']).trans h'.1) (by simp; omega)
    obtain ⟨z, rfl⟩ := h1
    obtain ⟨rest, is, hp⟩ := h'.2.1
    exact h.2.2 ⟨z ++ rest, is, by simpa using hp⟩
  have h1 := shorter h h'
  have h2 := shorter h' h
  obtain ⟨z, hz⟩ := h.1
  obtain ⟨z', hz'⟩ := h'.1
  have h3 : pre ++ ([t] ++ z) = pre' ++ ([t'] ++ z') := by rw [← List.append_assoc, ← List.append_assoc, hz, hz']
  have h4 := List.append_inj h3 (by omega)
  simp only [List.cons_append, List.nil_append, List.cons.injEq] at h4
  exact ⟨h4.1, h4.2.1⟩

/-- C84 (partial): a rejected text has a first token that does not fit, and the message is about that token, unless it is a parenthesis
after an operand that cannot be called; then the message is about it or a later token. The full claim, without the exception, is false
(`c84_later`). -/
theorem c84_first_partial (text : Str) (m : Str) (h : parse (F := F) text = .err m) :
    ∃ pre t r t' r', segment text = pre ++ t :: r ∧ FirstMisfit F (segment text) pre t ∧ t' :: r' <:+ t :: r ∧
      (∃ why : Fault F, Wrong (segment text) why (t' :: r') ∧ m = why.text t') ∧ (t' :: r' = t :: r ∨ t.kind = .Lp) := by
  obtain ⟨why, t', r', hw, rfl⟩ := (c84_message text m).1 h
  obtain ⟨pre, t, r, h1, h2, h3, ⟨suf, _, is, hp⟩, hf⟩ := wrong_site hw
  refine ⟨pre, t, r, t', r', h1, ⟨⟨r, by rw [h1]; simp⟩, ⟨suf, is, hp⟩, ?_⟩, h2, ⟨why, hw, rfl⟩, h3⟩
  rintro ⟨rest, is', hp'⟩
  rw [List.append_assoc] at hp'
  exact failsTop_not (hf rest) is' hp'

/-- C84 (partial): where the first token that does not fit is not an opening parenthesis, it is the one the message is about. -/
theorem c84_named_partial (text : Str) (m : Str) (pre : List Token) (t : Token) (h : parse (F := F) text = .err m)
    (hm : FirstMisfit F (segment text) pre t) (ht : t.kind ≠ .Lp) : ∃ why : Fault F, m = why.text t := by
  obtain ⟨pre', t1, r, t', r', h1, h2, h3, ⟨why, _, h4⟩, h5⟩ := c84_first_partial text m h
  obtain ⟨rfl, rfl⟩ := c84_unique hm h2
  rcases h5 with h5 | h5
  · cases h5
    exact ⟨why, h4⟩
  · exact (ht h5).elim

/-- The full claim. -/
def C84 (F : Type) [Rt F] : Prop := ∀ (text : Str) (m : Str), parse (F := F) text = .err m →
  ∃ (pre : List Token) (t : Token) (why : Fault F), FirstMisfit F (segment text) pre t ∧ m = why.text t

/-- The full claim is false: in `1(2 3)` nothing can go on after `1(`, but the message is about the `3`. -/
theorem c84_later : ¬ C84 F := by
  intro h
  have hp : parse (F := F) c!"1(2 3)" = .err c!"token expect Comma but found Integer" := rfl
  obtain ⟨pre, t, why, h1, h2⟩ := h _ _ hp
  have h3 : FirstMisfit F (segment c!"1(2 3)") [⟨.Integer, c!"1"⟩] ⟨.Lp, c!"("⟩ := by
    have hi : IntText c!"1" (1 : Int64).toInt := parseI64_iff.1 rfl
    refine ⟨⟨_, rfl⟩, ⟨[Token.eof], _, program_one (.expr _ _ _ (whole_operand (.int 0 _ 1 _ rfl hi) shuts_eof))⟩, ?_⟩
    rintro ⟨rest, is, hp⟩
    refine failsTop_not (fails_first (K := fun _ => True) ⟨_, _, rfl, by decide⟩ (fails_expr ⟨_, _, rfl, by decide⟩ ⟨_, _, rfl, by decide⟩ ?_)) is hp
    exact call_fails (b := ⟨.Lp, c!"("⟩) (.int 0 _ 1 _ rfl hi) (.nil _ _ _) (by decide) rfl (by intro f hf; cases hf)
  obtain ⟨rfl, rfl⟩ := c84_unique h1 h3
  cases why with
  | expects k => cases k <;> cases h2
  | _ => cases h2

/-- `let x 1`: the first token that does not fit is the `1`, where an `=` has to come. -/
example : parse (F := F) c!"let x 1" = .err c!"token expect Assign but found Integer" ∧
    Wrong (F := F) (segment c!"let x 1") (.expects .Assign) [⟨.Integer, c!"1"⟩, Token.eof] :=
  ⟨rfl, .expr _ _ _ ⟨_, _, rfl, by decide⟩ ⟨_, _, rfl, by decide⟩ ⟨_, _, rfl, by decide⟩
    (.letAssign 0 ⟨.Let, c!"let"⟩ ⟨.Ident, c!"x"⟩ _ _ rfl rfl (by decide))⟩

/-- `a; [b, )`: deep inside the second item, an operand is missing. -/
example : parse (F := F) c!"a; [b, )" = .err c!"parse expr error: )" := rfl

/-- `test t { if (a) b }`: a block has to come after the condition. -/
example : parse (F := F) c!"test t { if (a) b }" = .err c!"token expect Lb but found Ident" := rfl

/-- `9223372036854775808` is one more than the largest integer. -/
example : parse (F := F) c!"a + 9223372036854775808" = .err c!"parse integer error: 9223372036854775808" := rfl

end Am
