import Verif.Spec.Firm
import Verif.Props.Crash
import Verif.Props.Typing
set_option linter.unusedSimpArgs false
/-! # Scripts whose operators cannot crash because of how their operands are written -/
namespace Am
open Am.Spec
variable {F : Type} [Rt F]

theorem runsAll_two {net : Net} {l r : Expr F} {a b : Value F} {s s' : St F} (h : RunsAll net [l, r] s (.ok [a, b]) s') :
    (∃ s1, Runs net l s (.ok a) s1) ∧ ∃ s1 s2, Runs net r s1 (.ok b) s2 := by
  cases h with
  | cons h1 h2 =>
    cases h2 with
    | cons h2 _ => exact ⟨⟨_, h1⟩, _, _, h2⟩
    | head _ hx => cases hx
    | tail _ _ hx => cases hx
  | head _ hx => cases hx
  | tail _ _ hx => cases hx

/-- What an expression evaluates to is among what it may be. -/
theorem runs_mayBe {net : Net} : ∀ (e : Expr F) {v : Value F} {s s' : St F}, Runs net e s (.ok v) s' → MayBe e v
  | .int _, _, _, _, h => by cases h; rfl
  | .float _, _, _, _, h => by cases h; rfl
  | .bool _, _, _, _, h => by cases h; rfl
  | .str _, _, _, _, h => by cases h; rfl
  | .arr _, _, _, _, h => by
    cases h with
    | arr h => exact ⟨_, rfl⟩
    | arrStops _ hx => cases hx
  | .map _, _, _, _, h => by
    cases h with
    | map h => exact ⟨_, rfl⟩
    | mapStops _ hx => cases hx
  | .paren e, _, _, _, h => by
    cases h with
    | paren h => exact runs_mayBe e h
  | .letE _ e, _, _, _, h => by
    cases h with
    | letE h => exact runs_mayBe e h
    | letStops _ hx => cases hx
  | .unary _ e, _, _, _, h => by
    cases h with
    | unary h hn => exact ⟨_, runs_mayBe e h, hn⟩
    | unaryStops _ hx => cases hx
  | .binary _ l r, _, _, _, h => by
    cases h with
    | binary hk h ho =>
      obtain ⟨⟨_, h1⟩, _, _, h2⟩ := runsAll_two h
      exact Or.inl ⟨_, _, runs_mayBe l h1, runs_mayBe r h2, ho⟩
    | binaryStops _ _ hx => cases hx
    | orLeft hk h _ => exact Or.inr ⟨Or.inl hk, Or.inl (runs_mayBe l h)⟩
    | orRight hk _ _ h => exact Or.inr ⟨Or.inl hk, Or.inr (runs_mayBe r h)⟩
    | andLeft hk h _ => exact Or.inr ⟨Or.inr hk, Or.inl (runs_mayBe l h)⟩
    | andRight hk _ _ h => exact Or.inr ⟨Or.inr hk, Or.inr (runs_mayBe r h)⟩
    | logicStops _ _ hx => cases hx
  | .index _ _, _, _, _, _ => trivial
  | .field _ _, _, _, _, _ => trivial
  | .ident _, _, _, _, _ => trivial
  | .ifE _ _ _, _, _, _, _ => trivial
  | .call _ _, _, _, _, _ => trivial

theorem firm_site {net : Net} {x : Expr F} {s : St F} (hf : Firm x) : ¬CrashSite net x s := by
  intro h
  cases h with
  | binary h hc =>
    obtain ⟨⟨_, h1⟩, _, _, h2⟩ := runsAll_two h
    exact hf _ _ (runs_mayBe _ h1) (runs_mayBe _ h2) hc
  | unary h hc => exact hf _ (runs_mayBe _ h) hc

/-- C14, a further part that holds: no script crashes if each of its operators, and each in the asserts of the known requests, does not crash on
anything its operands may be by the way they are written. A division by a literal other than 0 and -1, say, does not crash. -/
theorem c14_written_partial (net : Net) (hc : ∀ sent m, Monotone (clocksOf (net.exch sent m))) (block : List (Expr F)) (s : St F)
    (hs : Proper (.map s.ctx.inner)) (hb : ∀ e ∈ block, ∀ x, Within x e → Firm x) (ha : ∀ x, InAsserts s.ctx.requests x → Firm x) :
    (runBlock net block s).1 ≠ .panic := by
  intro h
  obtain ⟨x, s0, hx, ⟨e, he, hw⟩ | hi⟩ := c14_where_partial net hc block s hs h
  · exact firm_site (hb e he x hw) hx
  · exact firm_site (ha x hi) hx

/-- C14: division and remainder by a literal other than 0 and -1 do not crash, whatever is divided. -/
theorem c14_literal_divisor (t : Token) (l : Expr F) (i : Int64) (hk : t.kind = .Div ∨ t.kind = .Rem) (h0 : i.toInt ≠ 0) (h1 : i.toInt ≠ -1) :
    Firm (.binary t l (.int i)) := by
  intro a b _ hb hp
  cases hb
  generalize t.kind = k at hk hp
  cases hp with
  | zero _ h => exact h0 h
  | least _ _ h => exact h1 h
  | shift _ h => rcases hk with rfl | rfl <;> simp at h
  | _ => simp at hk

/-- C14: shifts by a literal from 0 to 63 do not crash, whatever is shifted. -/
theorem c14_literal_shift (t : Token) (l : Expr F) (i : Int64) (hk : t.kind = .Sl ∨ t.kind = .Sr) (h0 : 0 ≤ i.toInt) (h1 : i.toInt < 64) :
    Firm (.binary t l (.int i)) := by
  intro a b _ hb hp
  cases hb
  generalize t.kind = k at hk hp
  cases hp with
  | zero h => rcases hk with rfl | rfl <;> simp at h
  | least h => rcases hk with rfl | rfl <;> simp at h
  | shift _ _ h => omega
  | _ => simp at hk

/-- C14: no operator crashes if one of its operands is a literal that is not an integer. -/
theorem c14_literal_other (t : Token) (l r : Expr F) (h : (∃ f, l = .float f ∨ r = .float f) ∨ ∃ w, l = .str w ∨ r = .str w) :
    Firm (.binary t l r) := by
  intro a b ha hb hp
  rcases h with ⟨f, rfl | rfl⟩ | ⟨w, rfl | rfl⟩ <;> first | (cases ha; generalize t.kind = k at hp; cases hp; done) | (cases hb; generalize t.kind = k at hp; cases hp)

/-- C14: without overflow checks, only division and remainder need looking at. -/
theorem c14_unchecked_other (hn : Rt.checks F = false) (t : Token) (l r : Expr F) (h : t.kind ≠ .Div ∧ t.kind ≠ .Rem) : Firm (.binary t l r) := by
  intro a b _ _ hp
  generalize t.kind = k at h hp
  cases hp with
  | zero hk => rcases hk with rfl | rfl <;> simp at h
  | least hk => rcases hk with rfl | rfl <;> simp at h
  | _ => simp_all

/-- C130: if moreover no operator can crash by the way its operands are written, the clocks go forward and the bodies received can be read in finite
time, there is a value. -/
theorem c130_written (net : Net) (b : List (Expr F)) {g g' : Env} {t : Ty} (s : St F) (hm : Meets g s) (h : typeBlock s.ctx.requests b .null g = some (t, g'))
    (hbody : BodiesParse F net) (hclock : ∀ sent m, Monotone (clocksOf (net.exch sent m))) (hs : Proper (.map s.ctx.inner))
    (hb : ∀ e ∈ b, ∀ x, Within x e → Firm x) (ha : ∀ x, InAsserts s.ctx.requests x → Firm x) :
    ∃ v, (runBlock net b s).1 = .ok v ∧ HasTy t v ∧ Meets g' (runBlock net b s).2 := by
  have h1 := c130_block net b s hm h
  have h2 := c13_terminates net b s hbody
  have h3 := c14_written_partial net hclock b s hs hb ha
  cases hr : (runBlock net b s).1 with
  | ok v => exact ⟨v, rfl, h1.2 v hr⟩
  | err e => exact absurd hr (h1.1 e)
  | panic => exact absurd hr h3
  | hang => exact absurd hr h2

/-- Concrete case: `x / (2 * 3) % -5` in a build with or without checks. -/
example : ∀ x, Within x (.binary ⟨.Rem, c!"%"⟩ (.binary ⟨.Div, c!"/"⟩ (.ident c!"x") (.paren (.binary ⟨.Mul, c!"*"⟩ (.int 2) (.int 3))))
    (.unary ⟨.Sub, c!"-"⟩ (.int 5)) : Expr F) → Firm x := by
  have hm : ∀ v : Value F, MayBe (.binary ⟨.Mul, c!"*"⟩ (.int 2) (.int 3)) v → v = .int 6 := by
    intro v h
    rcases h with ⟨a, b, ha, hb, ho⟩ | ⟨h, -⟩
    · cases ha; cases hb
      have h2 : Res.ok v = (Value.int 2).mul (.int 3 : Value F) := (operates_iff (k := .Mul) rfl (.int 2) (.int 3) _).1 ho
      have h3 : (Value.int 2).mul (.int 3 : Value F) = .ok (.int 6) := rfl
      rw [h3] at h2
      cases h2
      rfl
    · simp at h
  have hu : ∀ v : Value F, MayBe (.unary ⟨.Sub, c!"-"⟩ (.int 5)) v → v = .int (-5) := by
    intro v ⟨w, hw, hn⟩
    cases hw
    have h2 := (negates_iff _ _ _).1 hn
    have h3 : unaryValue ⟨.Sub, c!"-"⟩ (.int 5 : Value F) = .ok (.int (-5)) := rfl
    rw [h3] at h2
    cases h2
    rfl
  have leaf : ∀ {x : Expr F} {i : Int64}, Within x (.int i) → Firm x := by
    intro x i h
    cases h with
    | self => trivial
    | part hp _ => cases hp
  intro x hx
  cases hx with
  | self =>
    intro a b _ hb hp
    cases hu b hb
    cases hp with
    | zero _ h => exact absurd h (by decide)
    | least _ _ h => exact absurd h (by decide)
    | shift _ h => simp at h
  | part hp hx =>
    simp only [parts, List.mem_cons, List.not_mem_nil, or_false] at hp
    rcases hp with rfl | rfl
    · cases hx with
      | self =>
        intro a b _ hb hp
        cases hm b hb
        cases hp with
        | zero _ h => exact absurd h (by decide)
        | least _ _ h => exact absurd h (by decide)
        | shift _ h => simp at h
      | part hp hx =>
        simp only [parts, List.mem_cons, List.not_mem_nil, or_false] at hp
        rcases hp with rfl | rfl
        · cases hx with
          | self => trivial
          | part hp _ => cases hp
        · cases hx with
          | self => trivial
          | part hp hx =>
            simp only [parts, List.mem_cons, List.not_mem_nil, or_false] at hp
            subst hp
            cases hx with
            | self =>
              intro a b ha hb hp
              cases ha; cases hb
              cases hp with
              | mul _ h => exact h (by unfold Fits; decide)
              | zero h => simp at h
              | least h => simp at h
              | shift _ h => simp at h
            | part hp hx =>
              simp only [parts, List.mem_cons, List.not_mem_nil, or_false] at hp
              rcases hp with rfl | rfl <;> exact leaf hx
    · cases hx with
      | self =>
        intro a ha hp
        cases ha
        cases hp with
        | neg _ h => exact absurd h (by decide)
      | part hp hx =>
        simp only [parts, List.mem_cons, List.not_mem_nil, or_false] at hp
        subst hp
        exact leaf hx

end Am
