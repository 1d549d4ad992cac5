import Verif.Props.Semantics
import Verif.Spec.Crash
/-! # C14: where scripts crash -/
set_option linter.unusedSimpArgs false
set_option linter.unusedSectionVars false
namespace Am
open Spec
variable {F : Type} [Rt F]

theorem arith_panic {F : Type} {c : Bool} {x : Int} : Arith (F := F) c x .panic ↔ c = true ∧ ¬Fits x := by
  constructor
  · rintro (⟨_, _, e, _⟩ | ⟨h1, h2, _⟩ | ⟨_, _, _, e, _⟩)
    · cases e
    · exact ⟨h2, h1⟩
    · cases e
  · rintro ⟨h1, h2⟩; exact Or.inr (Or.inl ⟨h2, h1, rfl⟩)

/-- C14: an operator crashes exactly on the operands listed. -/
theorem c14_operator (k : Kind) (a b : Value F) : Operates k a b .panic ↔ CrashPair k a b := by
  constructor
  · intro h
    cases h with
    | computes hs h =>
      unfold Computes at h
      dsimp only at h
      split at h
      · cases k <;> first | (cases hs; done) | skip
        · exact .add (arith_panic.1 h).1 (arith_panic.1 h).2
        · exact .sub (arith_panic.1 h).1 (arith_panic.1 h).2
        · exact .mul (arith_panic.1 h).1 (arith_panic.1 h).2
        · rcases h with ⟨h | h, _⟩ | ⟨_, _, _, e, _⟩
          · exact .zero (Or.inl rfl) h
          · exact .least (Or.inl rfl) h.1 h.2
          · cases e
        · rcases h with ⟨h | h, _⟩ | ⟨_, _, _, e, _⟩
          · exact .zero (Or.inr rfl) h
          · exact .least (Or.inr rfl) h.1 h.2
          · cases e
        · obtain ⟨c, e, _⟩ := h; cases e
        · obtain ⟨c, e, _⟩ := h; cases e
        · obtain ⟨c, e, _⟩ := h; cases e
        · rcases h with ⟨h1, h2, e⟩ | ⟨_, _, _, _, _, _, e, _⟩
          · exact .shift h2 (Or.inl rfl) (by omega)
          · cases e
        · rcases h with ⟨h1, h2, e⟩ | ⟨_, _, _, _, _, _, e, _⟩
          · exact .shift h2 (Or.inr rfl) (by omega)
          · cases e
      · split at h <;> cases h
      · split at h <;> cases h
      · split at h <;> cases h
      · rcases h with ⟨_, e⟩ | ⟨_, e⟩ <;> cases e
      · cases h
  · intro h
    cases h with
    | zero hk h =>
      rcases hk with rfl | rfl
      · exact .computes rfl (Or.inl ⟨Or.inl h, rfl⟩)
      · exact .computes rfl (Or.inl ⟨Or.inl h, rfl⟩)
    | least hk h1 h2 =>
      rcases hk with rfl | rfl
      · exact .computes rfl (Or.inl ⟨Or.inr ⟨h1, h2⟩, rfl⟩)
      · exact .computes rfl (Or.inl ⟨Or.inr ⟨h1, h2⟩, rfl⟩)
    | add h1 h2 => exact .computes rfl (arith_panic.2 ⟨h1, h2⟩)
    | sub h1 h2 => exact .computes rfl (arith_panic.2 ⟨h1, h2⟩)
    | mul h1 h2 => exact .computes rfl (arith_panic.2 ⟨h1, h2⟩)
    | shift h1 hk h2 =>
      rcases hk with rfl | rfl
      · exact .computes rfl (Or.inl ⟨by omega, h1, rfl⟩)
      · exact .computes rfl (Or.inl ⟨by omega, h1, rfl⟩)

/-- C14: minus crashes exactly on the smallest integer, in a build with overflow checks. -/
theorem c14_minus (t : Token) (v : Value F) : Negates t v .panic ↔ CrashSingle t.kind v := by
  constructor
  · intro h
    generalize hr : (.panic : Res (Value F)) = r at h
    cases h <;> first | (cases hr; done) | skip
    rename_i a ht h
    subst hr
    have := arith_panic.1 h
    have hf := i64_fits a
    unfold Fits at this hf
    rw [ht]
    exact .neg this.1 (by omega)
  · intro h
    generalize hk : t.kind = k at h
    cases h with
    | neg h1 h2 => exact .minusInt hk (arith_panic.2 ⟨h1, by unfold Fits; omega⟩)

section
variable {net : Net}

mutual
theorem runs_table : ∀ {e : Expr F} {s s' : St F} {r : Res (Value F)}, Runs net e s r s' → s'.ctx.requests = s.ctx.requests
  | _, _, _, _, .int _ _ => rfl
  | _, _, _, _, .float _ _ => rfl
  | _, _, _, _, .bool _ _ => rfl
  | _, _, _, _, .str _ _ => rfl
  | _, _, _, _, .arr h => runsAll_table h
  | _, _, _, _, .arrStops h _ => runsAll_table h
  | _, _, _, _, .map h => runsAll_table h
  | _, _, _, _, .mapStops h _ => runsAll_table h
  | _, _, _, _, .index h _ => runsAll_table h
  | _, _, _, _, .indexStops h _ => runsAll_table h
  | _, _, _, _, .field h _ => runs_table h
  | _, _, _, _, .fieldStops h _ => runs_table h
  | _, _, _, _, .ident _ => rfl
  | _, _, _, _, .unbound _ => rfl
  | _, _, _, _, .letE h => by have := runs_table h; exact this
  | _, _, _, _, .letStops h _ => runs_table h
  | _, _, _, _, .unary h _ => runs_table h
  | _, _, _, _, .unaryStops h _ => runs_table h
  | _, _, _, _, .binary _ h _ => runsAll_table h
  | _, _, _, _, .binaryStops _ h _ => runsAll_table h
  | _, _, _, _, .orLeft _ h _ => runs_table h
  | _, _, _, _, .orRight _ h _ h2 => (runs_table h2).trans (runs_table h)
  | _, _, _, _, .andLeft _ h _ => runs_table h
  | _, _, _, _, .andRight _ h _ h2 => (runs_table h2).trans (runs_table h)
  | _, _, _, _, .logicStops _ h _ => runs_table h
  | _, _, _, _, .noOperator _ _ _ => rfl
  | _, _, _, _, .paren h => runs_table h
  | _, _, _, _, .ifThen h _ h2 => (runsBlock_table h2).trans (runs_table h)
  | _, _, _, _, .ifElse h _ h2 => (runsBlock_table h2).trans (runs_table h)
  | _, _, _, _, .ifStops h _ => runs_table h
  | _, _, _, _, .builtin h _ _ => by have := runsAll_table h; exact this
  | _, _, _, _, .request h _ hx => (exchanges_table hx).trans (runsAll_table h)
  | _, _, _, _, .callStops h _ => runsAll_table h
theorem runsAll_table : ∀ {es : List (Expr F)} {s s' : St F} {r : Res (List (Value F))}, RunsAll net es s r s' → s'.ctx.requests = s.ctx.requests
  | _, _, _, _, .nil _ => rfl
  | _, _, _, _, .cons h h2 => (runsAll_table h2).trans (runs_table h)
  | _, _, _, _, .head h _ => runs_table h
  | _, _, _, _, .tail h h2 _ => (runsAll_table h2).trans (runs_table h)
theorem runsBlock_table : ∀ {v : Value F} {es : List (Expr F)} {s s' : St F} {r : Res (Value F)}, RunsBlock net v es s r s' →
    s'.ctx.requests = s.ctx.requests
  | _, _, _, _, _, .nil _ _ => rfl
  | _, _, _, _, _, .cons h h2 => (runsBlock_table h2).trans (runs_table h)
  | _, _, _, _, _, .stops h _ => runs_table h
theorem exchanges_table : ∀ {f message : Str} {asserts : List (Expr F)} {s s' : St F} {r : Res (Value F)},
    Exchanges net f message asserts s r s' → s'.ctx.requests = s.ctx.requests
  | _, _, _, _, _, _, .sendStops _ _ _ => rfl
  | _, _, _, _, _, _, .mapStops _ _ _ _ => rfl
  | _, _, _, _, _, _, .assertStops _ _ _ _ _ _ => rfl
  | _, _, _, _, _, _, .done _ _ _ _ _ => rfl
end

/-- A crash site within one of the expressions or within an assert of a known request. -/
def Sited (net : Net) (es : List (Expr F)) (table : List (Str × (Str × List (Expr F)))) : Prop :=
  ∃ x s, CrashSite net x s ∧ ((∃ e ∈ es, Within x e) ∨ InAsserts table x)

theorem Sited.mono {es es' : List (Expr F)} {table : List (Str × (Str × List (Expr F)))} (h : Sited net es table)
    (hs : ∀ e ∈ es, ∃ e' ∈ es', ∀ x, Within x e → Within x e') : Sited net es' table := by
  obtain ⟨x, s, hx, h⟩ := h
  refine ⟨x, s, hx, ?_⟩
  rcases h with ⟨e, he, hw⟩ | h
  · obtain ⟨e', he', h'⟩ := hs e he
    exact Or.inl ⟨e', he', h' x hw⟩
  · exact Or.inr h

/-- A site within the parts of an expression is a site within the expression. -/
theorem Sited.up {es : List (Expr F)} {e : Expr F} {table : List (Str × (Str × List (Expr F)))} (h : Sited net es table) (hs : ∀ p ∈ es, p ∈ parts e) :
    Sited net [e] table :=
  h.mono (fun p hp => ⟨e, List.mem_cons_self .., fun _ hw => .part (hs p hp) hw⟩)

theorem Sited.first {p e : Expr F} {es : List (Expr F)} {table : List (Str × (Str × List (Expr F)))} (h : Sited net [p] table) (hp : p ∈ parts e) :
    Sited net (e :: es) table :=
  h.mono (fun q hq => ⟨e, List.mem_cons_self .., fun _ hw => .part (by rw [List.mem_singleton.1 hq]; exact hp) hw⟩)

theorem stops_panic {α β : Type} {x : Res α} {r : Res β} (h : Stops x r) (hr : r = .panic) : x = .panic := by
  subst hr; cases h; rfl

mutual
theorem runs_crash (hc : ∀ sent m, Monotone (clocksOf (net.exch sent m))) : ∀ {e : Expr F} {s s' : St F} {r : Res (Value F)}, Runs net e s r s' →
    r = .panic → Sited net [e] s.ctx.requests
  | _, _, _, _, .int _ _, hr => by cases hr
  | _, _, _, _, .float _ _, hr => by cases hr
  | _, _, _, _, .bool _ _, hr => by cases hr
  | _, _, _, _, .str _ _, hr => by cases hr
  | _, _, _, _, .arr _, hr => by cases hr
  | _, _, _, _, .arrStops h hx, hr => (runsAll_crash hc h (stops_panic hx hr)).up (fun _ h => h)
  | _, _, _, _, .map _, hr => by cases hr
  | _, _, _, _, .mapStops h hx, hr => (runsAll_crash hc h (stops_panic hx hr)).up (fun _ h => h)
  | _, _, _, _, .index _ hi, hr => by subst hr; cases hi
  | _, _, _, _, .indexStops h hx, hr => (runsAll_crash hc h (stops_panic hx hr)).up (fun _ h => h)
  | _, _, _, _, .field _ hf, hr => by subst hr; cases hf
  | _, _, _, _, .fieldStops h hx, hr => (runs_crash hc h (stops_panic hx hr)).up (fun _ h => h)
  | _, _, _, _, .ident _, hr => by cases hr
  | _, _, _, _, .unbound _, hr => by cases hr
  | _, _, _, _, .letE _, hr => by cases hr
  | _, _, _, _, .letStops h hx, hr => (runs_crash hc h (stops_panic hx hr)).up (fun _ h => h)
  | _, s, _, _, .unary (t := t) (e := e) (v := v) h hn, hr =>
    ⟨.unary t e, s, .unary h ((c14_minus t v).1 (hr ▸ hn)), Or.inl ⟨_, List.mem_cons_self .., .self _⟩⟩
  | _, _, _, _, .unaryStops h hx, hr => (runs_crash hc h (stops_panic hx hr)).up (fun _ h => h)
  | _, s, _, _, .binary (t := t) (l := l) (r := r) (a := a) (b := b) _ h ho, hr =>
    ⟨.binary t l r, s, .binary h ((c14_operator t.kind a b).1 (hr ▸ ho)), Or.inl ⟨_, List.mem_cons_self .., .self _⟩⟩
  | _, _, _, _, .binaryStops _ h hx, hr => (runsAll_crash hc h (stops_panic hx hr)).up (fun _ h => h)
  | _, _, _, _, .orLeft _ _ _, hr => by cases hr
  | _, _, _, _, .orRight _ h _ h2, hr => by
    have := runs_crash hc h2 hr
    rw [runs_table h] at this
    exact this.up (by simp [parts])
  | _, _, _, _, .andLeft _ _ _, hr => by cases hr
  | _, _, _, _, .andRight _ h _ h2, hr => by
    have := runs_crash hc h2 hr
    rw [runs_table h] at this
    exact this.up (by simp [parts])
  | _, _, _, _, .logicStops _ h hx, hr => (runs_crash hc h (stops_panic hx hr)).up (by simp [parts])
  | _, _, _, _, .noOperator _ _ _, hr => by cases hr
  | _, _, _, _, .paren h, hr => (runs_crash hc h hr).up (fun _ h => h)
  | _, _, _, _, .ifThen h _ h2, hr => by
    have := runsBlock_crash hc h2 hr
    rw [runs_table h] at this
    exact this.up (by intro p hp; simp [parts, hp])
  | _, _, _, _, .ifElse h _ h2, hr => by
    have := runsBlock_crash hc h2 hr
    rw [runs_table h] at this
    exact this.up (by intro p hp; simp [parts, hp])
  | _, _, _, _, .ifStops h hx, hr => (runs_crash hc h (stops_panic hx hr)).up (by simp [parts])
  | _, _, _, _, .builtin _ _ hb, hr => by subst hr; cases hb
  | _, _, _, _, .request (f := f) (message := message) (asserts := asserts) h hn hx, hr => by
    obtain ⟨x, s0, hs, ⟨e, he, hw⟩⟩ := exchanges_crash hc hx hr
    refine ⟨x, s0, hs, Or.inr ⟨f, message, asserts, e, ?_, he, hw⟩⟩
    rw [← runsAll_table h]
    exact hn
  | _, _, _, _, .callStops h hx, hr => (runsAll_crash hc h (stops_panic hx hr)).up (fun _ h => h)
theorem runsAll_crash (hc : ∀ sent m, Monotone (clocksOf (net.exch sent m))) : ∀ {es : List (Expr F)} {s s' : St F} {r : Res (List (Value F))},
    RunsAll net es s r s' → r = .panic → Sited net es s.ctx.requests
  | _, _, _, _, .nil _, hr => by cases hr
  | _, _, _, _, .cons _ _, hr => by cases hr
  | _, _, _, _, .head h hx, hr => (runs_crash hc h (stops_panic hx hr)).mono (fun e he => ⟨e, by simp_all, fun _ h => h⟩)
  | _, _, _, _, .tail h h2 hx, hr => by
    have := runsAll_crash hc h2 (stops_panic hx hr)
    rw [runs_table h] at this
    exact this.mono (fun e he => ⟨e, List.mem_cons_of_mem _ he, fun _ h => h⟩)
theorem runsBlock_crash (hc : ∀ sent m, Monotone (clocksOf (net.exch sent m))) : ∀ {v : Value F} {es : List (Expr F)} {s s' : St F} {r : Res (Value F)},
    RunsBlock net v es s r s' → r = .panic → Sited net es s.ctx.requests
  | _, _, _, _, _, .nil _ _, hr => by cases hr
  | _, _, _, _, _, .cons h h2, hr => by
    have := runsBlock_crash hc h2 hr
    rw [runs_table h] at this
    exact this.mono (fun e he => ⟨e, List.mem_cons_of_mem _ he, fun _ h => h⟩)
  | _, _, _, _, _, .stops h hx, hr => (runs_crash hc h (stops_panic hx hr)).mono (fun e he => ⟨e, by simp_all, fun _ h => h⟩)
theorem exchanges_crash (hc : ∀ sent m, Monotone (clocksOf (net.exch sent m))) : ∀ {f message : Str} {asserts : List (Expr F)} {s s' : St F}
    {r : Res (Value F)}, Exchanges net f message asserts s r s' → r = .panic → ∃ x s0, CrashSite net x s0 ∧ ∃ e ∈ asserts, Within x e
  | _, _, _, _, _, _, .sendStops _ _ hx, hr => absurd (stops_panic hx hr) (send_not_panic _ _ _ (hc _ _))
  | _, _, _, _, _, _, .mapStops _ _ _ hx, hr => absurd (stops_panic hx hr) (toMap_not_panic _)
  | _, _, _, _, _, _, .assertStops _ _ _ _ h hx, hr => by
    obtain ⟨x, s0, hs, h | ⟨n, m, as, e, h, -⟩⟩ := checks_crash hc h (stops_panic hx hr)
    · exact ⟨x, s0, hs, h⟩
    · cases h
  | _, _, _, _, _, _, .done _ _ _ _ _, hr => by cases hr
theorem checks_crash (hc : ∀ sent m, Monotone (clocksOf (net.exch sent m))) : ∀ {es : List (Expr F)} {s s' : St F} {r : Res (List Assert)},
    Checks net es s r s' → r = .panic → Sited net es s.ctx.requests
  | _, _, _, _, .nil _, hr => by cases hr
  | _, _, _, _, .other _ h, hr => (checks_crash hc h hr).mono (fun e he => ⟨e, List.mem_cons_of_mem _ he, fun _ h => h⟩)
  | _, _, _, _, .leftStops h _ hx, hr =>
    (runs_crash hc h (stops_panic hx hr)).first (by simp [parts])
  | _, _, _, _, .rightStops h _ h2 _ hx, hr => by
    have := runs_crash hc h2 (stops_panic hx hr)
    rw [runs_table h] at this
    exact this.first (by simp [parts])
  | _, _, _, _, .restStops h _ h2 _ h3 hx, hr => by
    have := checks_crash hc h3 (stops_panic hx hr)
    rw [runs_table h2, runs_table h] at this
    exact this.mono (fun e he => ⟨e, List.mem_cons_of_mem _ he, fun _ h => h⟩)
  | _, _, _, _, .recorded _ _ _ _ _ _ _, hr => by cases hr
  | _, _, _, _, .dropped _ _ _ _ _ _, hr => by cases hr
end

end

/-- C14, the part that holds: a script crashes only where an operator is applied to operands it crashes on, within the script or within an
assert of a known request (given that the clocks do not run backwards). -/
theorem c14_where_partial (net : Net) (hc : ∀ sent m, Monotone (clocksOf (net.exch sent m))) (block : List (Expr F)) (s : St F)
    (hs : Proper (.map s.ctx.inner)) (h : (runBlock net block s).1 = .panic) :
    ∃ x s0, CrashSite net x s0 ∧ ((∃ e ∈ block, Within x e) ∨ InAsserts s.ctx.requests x) :=
  runsBlock_crash hc (runsBlock_total (calm net) block .null s .null hs).1 h

/-- C14: an expression whose operands evaluate to values its operator crashes on crashes. -/
theorem c14_site (net : Net) (e : Expr F) (s : St F) (hs : Proper (.map s.ctx.inner)) (h : CrashSite net e s) : (eval net e s).1 = .panic := by
  cases h with
  | @binary t l r a b _ s' h1 h2 =>
    have hk : Strict t.kind := by
      generalize t.kind = k at h2
      cases h2 with
      | zero hk => rcases hk with rfl | rfl <;> simp [Strict]
      | least hk => rcases hk with rfl | rfl <;> simp [Strict]
      | shift _ hk => rcases hk with rfl | rfl <;> simp [Strict]
      | _ => simp [Strict]
    exact congrArg Prod.fst (runs_sound (.binary hk h1 ((c14_operator t.kind a b).2 h2)) hs)
  | @unary t e v _ s' h1 h2 => exact congrArg Prod.fst (runs_sound (.unary h1 ((c14_minus t v).2 h2)) hs)

/-- Concrete case: `x / (x - 3)` where `x` is 3. -/
example (net : Net) : CrashSite net (.binary ⟨.Div, c!"/"⟩ (.ident c!"x") (.binary ⟨.Sub, c!"-"⟩ (.ident c!"x") (.int 3)))
    (⟨⟨[(c!"x", .int 3)], [], []⟩, [], []⟩ : St F) :=
  .binary (.cons (.ident rfl) (.cons (.binary (by simp [Strict]) (.cons (.ident rfl) (.cons (.int _ _) (.nil _)))
    (.computes rfl (Or.inl ⟨by unfold Fits; decide, 0, rfl, rfl⟩))) (.nil _))) (.zero (Or.inl rfl) rfl)

end Am
