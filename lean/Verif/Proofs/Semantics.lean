import Verif.Proofs.ProperValues
/-! # The evaluator follows the rules of `Spec/Semantics` -/
set_option linter.unusedSimpArgs false
set_option linter.unusedSectionVars false
namespace Am
open Spec
variable {F : Type} [Rt F]

theorem Spec.Stops.not_ok {α β : Type} {x : Res α} {r : Res β} (h : Stops x r) : (∀ a, x ≠ .ok a) ∧ ∀ b, r ≠ .ok b := by
  cases h <;> exact ⟨fun _ e => (by cases e), fun _ e => (by cases e)⟩

/-- A bind either continues or ends with the outcome of its first part. -/
theorem M.bind_split {α β : Type} (x : M F α) (f : α → M F β) (s : St F) :
    (∃ a, (x s).1 = .ok a ∧ (x >>= f) s = f a (x s).2) ∨ ∃ r, Stops (x s).1 r ∧ (x >>= f) s = (r, (x s).2) := by
  match h : x s with
  | (.ok a, s') => exact Or.inl ⟨a, rfl, M.bind_ok h⟩
  | (.err e, s') => exact Or.inr ⟨_, .err e, M.bind_err h⟩
  | (.panic, s') => exact Or.inr ⟨_, .panic, M.bind_panic h⟩
  | (.hang, s') => exact Or.inr ⟨_, .hang, M.bind_hang h⟩

theorem M.bind_stops {α β : Type} {x : M F α} {f : α → M F β} {s s' : St F} {y : Res α} {r : Res β} (h : x s = (y, s')) (hs : Stops y r) :
    (x >>= f) s = (r, s') := by
  cases hs with
  | err e => exact M.bind_err h
  | panic => exact M.bind_panic h
  | hang => exact M.bind_hang h

/-- What a run yields: it is a run by the rules, keeps the invariant, and its value is good. -/
def Fine {α : Type} (Inv : St F → Prop) (good : α → Prop) (R : Res α → St F → Prop) (x : Res α × St F) : Prop :=
  R x.1 x.2 ∧ Inv x.2 ∧ ∀ a, x.1 = .ok a → good a

theorem Fine.stop {α β : Type} {Inv : St F → Prop} {g : α → Prop} {good : β → Prop} {Q : Res α → St F → Prop} {R : Res β → St F → Prop}
    {x : Res α × St F} {r : Res β} (h : Fine Inv g Q x) (hs : Stops x.1 r) (hR : Q x.1 x.2 → R r x.2) : Fine Inv good R (r, x.2) :=
  ⟨hR h.1, h.2.1, fun a e => absurd e (hs.not_ok.2 a)⟩

/-- A call of a request or a built-in function by the rules. -/
def Called (net : Net) (f : Str) (vs : List (Value F)) (s : St F) (r : Res (Value F)) (s' : St F) : Prop :=
  (∃ t, amGet f s.ctx.requests = none ∧ Builtin f vs r t ∧ s' = { s with out := s.out ++ t }) ∨
  ∃ message asserts, amGet f s.ctx.requests = some (message, asserts) ∧ Exchanges net f message asserts s r s'

/-- What is needed of an invariant on states and of calls. -/
structure Calm (net : Net) (call : Call F) (Inv : St F → Prop) : Prop where
  vars : ∀ {s : St F}, Inv s → Proper (.map s.ctx.inner)
  write : ∀ {s : St F} (n : Str) {v : Value F}, Inv s → Proper v → Inv (assign n v s)
  call : ∀ (f : Str) {vs : List (Value F)} {s : St F}, Inv s → (∀ v ∈ vs, Proper v) → Fine Inv Proper (Called net f vs s) (call f vs s)

section
variable {net : Net} {call : Call F} {Inv : St F → Prop}

mutual
theorem runs_total (c : Calm net call Inv) : ∀ (e : Expr F) (s : St F), Inv s → Fine Inv Proper (Runs net e s) (evalExpr call e s)
  | .int i, s, h => ⟨.int i s, h, fun a e => by cases e; exact .int _⟩
  | .float i, s, h => ⟨.float i s, h, fun a e => by cases e; exact .float _⟩
  | .bool i, s, h => ⟨.bool i s, h, fun a e => by cases e; exact .bool _⟩
  | .str i, s, h => ⟨.str i s, h, fun a e => by cases e; exact .str _⟩
  | .arr es, s, h => by
    have ih := runsAll_total c es s h
    simp only [evalExpr]
    rcases M.bind_split (evalList call es) (fun vs => (pure (.arr vs) : M F (Value F))) s with ⟨vs, h1, e⟩ | ⟨r, hs, e⟩
    · rw [e]
      refine ⟨.arr (h1 ▸ ih.1), ih.2.1, fun a e => ?_⟩
      cases e
      exact .arr (ih.2.2 vs h1)
    · rw [e]; exact ih.stop hs (fun h => .arrStops h hs)
  | .map ps, s, h => by
    have ih := runsPairs_total c ps [] s proper_empty h
    simp only [evalExpr]
    rcases M.bind_split (evalPairs call [] ps) (fun m => (pure (.map m) : M F (Value F))) s with ⟨m, h1, e⟩ | ⟨r, hs, e⟩
    · rw [e]
      rcases ih.1 with ⟨vs, hr, hv, hp⟩ | ⟨y, hr, hs⟩
      · rw [hv] at h1
        cases h1
        refine ⟨.map hr, ih.2, fun a e => ?_⟩
        cases e
        exact hp
      · exact absurd h1 (hs.not_ok.2 m)
    · rw [e]
      rcases ih.1 with ⟨vs, hr, hv, hp⟩ | ⟨y, hr, hy⟩
      · exact absurd hv (hs.not_ok.1 _)
      · have : Stops y r := by
          generalize (evalPairs call [] ps s).1 = z at hs hy
          cases hy <;> cases hs <;> constructor
        exact ⟨.mapStops hr this, ih.2, fun a e => absurd e (hs.not_ok.2 a)⟩
  | .index l i, s, h => by
    have ih1 := runs_total c l s h
    simp only [evalExpr]
    rcases M.bind_split (evalExpr call l) (fun v => (do let i ← evalExpr call i; M.lift (indexValue v i) : M F (Value F))) s with ⟨a, h1, e⟩ | ⟨r, hs, e⟩
    · rw [e]
      have ih2 := runs_total c i _ ih1.2.1
      rcases M.bind_split (evalExpr call i) (fun i => (M.lift (indexValue a i) : M F (Value F))) (evalExpr call l s).2 with ⟨b, h2, e⟩ | ⟨r, hs, e⟩
      · rw [e]
        have hi := (indexes_iff a b (indexValue a b)).2 rfl
        refine ⟨.index (.cons (h1 ▸ ih1.1) (.cons (h2 ▸ ih2.1) (.nil _))) hi, ih2.2.1, fun v e => ?_⟩
        have e : indexValue a b = .ok v := e
        rw [e] at hi
        exact indexes_proper (ih1.2.2 a h1) hi
      · rw [e]
        refine ih2.stop hs (fun h => ?_)
        generalize (evalExpr call i (evalExpr call l s).2).1 = x at hs h
        cases hs with
        | err m => exact .indexStops (.tail (h1 ▸ ih1.1) (.head h (.err m)) (.err m)) (.err m)
        | panic => exact .indexStops (.tail (h1 ▸ ih1.1) (.head h .panic) .panic) .panic
        | hang => exact .indexStops (.tail (h1 ▸ ih1.1) (.head h .hang) .hang) .hang
    · rw [e]
      refine ih1.stop hs (fun h => ?_)
      generalize (evalExpr call l s).1 = x at hs h
      cases hs with
      | err m => exact .indexStops (.head h (.err m)) (.err m)
      | panic => exact .indexStops (.head h .panic) .panic
      | hang => exact .indexStops (.head h .hang) .hang
  | .field l n, s, h => by
    have ih := runs_total c l s h
    simp only [evalExpr]
    rcases M.bind_split (evalExpr call l) (fun v => (M.lift (fieldValue v n) : M F (Value F))) s with ⟨a, h1, e⟩ | ⟨r, hs, e⟩
    · rw [e]
      have hf := (fields_iff a n (fieldValue a n)).2 rfl
      refine ⟨.field (h1 ▸ ih.1) hf, ih.2.1, fun v e => ?_⟩
      have e : fieldValue a n = .ok v := e
      rw [e] at hf
      exact fields_proper (ih.2.2 a h1) hf
    · rw [e]; exact ih.stop hs (fun h => .fieldStops h hs)
  | .ident n, s, h => by
    simp only [evalExpr]
    have hx : s.ctx.get n = amGet n s.ctx.inner := rfl
    cases hg : amGet n s.ctx.inner with
    | none => rw [hx, hg]; exact ⟨.unbound hg, h, fun a e => (by cases e)⟩
    | some v => rw [hx, hg]; exact ⟨.ident hg, h, fun a e => (by cases e; exact proper_get (c.vars h) hg)⟩
  | .letE n e, s, h => by
    have ih := runs_total c e s h
    simp only [evalExpr]
    rcases M.bind_split (evalExpr call e) (fun v => (do M.modify fun s => { s with ctx := s.ctx.set n v }; pure v : M F (Value F))) s with ⟨a, h1, e⟩ | ⟨r, hs, e⟩
    · rw [e]
      exact ⟨.letE (h1 ▸ ih.1), c.write n ih.2.1 (ih.2.2 a h1), fun v e => by cases e; exact ih.2.2 a h1⟩
    · rw [e]; exact ih.stop hs (fun h => .letStops h hs)
  | .unary t r, s, h => by
    have ih := runs_total c r s h
    simp only [evalExpr]
    rcases M.bind_split (evalExpr call r) (fun v => (M.lift (unaryValue t v) : M F (Value F))) s with ⟨a, h1, e⟩ | ⟨r, hs, e⟩
    · rw [e]
      have hf := (negates_iff t a (unaryValue t a)).2 rfl
      refine ⟨.unary (h1 ▸ ih.1) hf, ih.2.1, fun v e => ?_⟩
      have e : unaryValue t a = .ok v := e
      rw [e] at hf
      exact negates_proper hf
    · rw [e]; exact ih.stop hs (fun h => .unaryStops h hs)
  | .binary t l r, s, h => by
    have ih1 := runs_total c l s h
    simp only [evalExpr]
    cases hop : binaryOp (F := F) t.kind with
    | some op =>
      dsimp only
      have hst : Strict t.kind := (strict_iff (F := F) t.kind).2 ⟨op, hop⟩
      rcases M.bind_split (evalExpr call l) (fun v => (do let b ← evalExpr call r; M.lift (op v b) : M F (Value F))) s with ⟨a, h1, e⟩ | ⟨x, hs, e⟩
      · rw [e]
        have ih2 := runs_total c r _ ih1.2.1
        rcases M.bind_split (evalExpr call r) (fun b => (M.lift (op a b) : M F (Value F))) (evalExpr call l s).2 with ⟨b, h2, e⟩ | ⟨x, hs, e⟩
        · rw [e]
          have hi := (operates_iff hop (ih1.2.2 a h1) (ih2.2.2 b h2) (op a b)).2 rfl
          refine ⟨.binary hst (.cons (h1 ▸ ih1.1) (.cons (h2 ▸ ih2.1) (.nil _))) hi, ih2.2.1, fun v e => ?_⟩
          have e : op a b = .ok v := e
          rw [e] at hi
          exact operates_proper hi
        · rw [e]
          refine ih2.stop hs (fun h => ?_)
          generalize (evalExpr call r (evalExpr call l s).2).1 = y at hs h
          cases hs with
          | err m => exact .binaryStops hst (.tail (h1 ▸ ih1.1) (.head h (.err m)) (.err m)) (.err m)
          | panic => exact .binaryStops hst (.tail (h1 ▸ ih1.1) (.head h .panic) .panic) .panic
          | hang => exact .binaryStops hst (.tail (h1 ▸ ih1.1) (.head h .hang) .hang) .hang
      · rw [e]
        refine ih1.stop hs (fun h => ?_)
        generalize (evalExpr call l s).1 = y at hs h
        cases hs with
        | err m => exact .binaryStops hst (.head h (.err m)) (.err m)
        | panic => exact .binaryStops hst (.head h .panic) .panic
        | hang => exact .binaryStops hst (.head h .hang) .hang
    | none =>
      dsimp only
      have hst : ¬Strict t.kind := fun h => by
        obtain ⟨op, h⟩ := (strict_iff (F := F) t.kind).1 h
        rw [hop] at h; cases h
      by_cases hlo : t.kind = .Lo
      · rw [if_pos hlo]
        rcases M.bind_split (evalExpr call l) (fun a => (if a.falsy then evalExpr call r else pure a : M F (Value F))) s with ⟨a, h1, e⟩ | ⟨x, hs, e⟩
        · rw [e]
          by_cases hf : a.falsy = true
          · rw [if_pos hf]
            have ih2 := runs_total c r _ ih1.2.1
            exact ⟨.orRight hlo (h1 ▸ ih1.1) ((countsFalse_iff a).1 hf) ih2.1, ih2.2⟩
          · rw [if_neg hf]
            exact ⟨.orLeft hlo (h1 ▸ ih1.1) (fun h => hf ((countsFalse_iff a).2 h)), ih1.2.1, fun v e => by cases e; exact ih1.2.2 a h1⟩
        · rw [e]; exact ih1.stop hs (fun h => .logicStops (Or.inl hlo) h hs)
      · rw [if_neg hlo]
        by_cases hla : t.kind = .La
        · rw [if_pos hla]
          rcases M.bind_split (evalExpr call l) (fun a => (if a.falsy then pure a else evalExpr call r : M F (Value F))) s with ⟨a, h1, e⟩ | ⟨x, hs, e⟩
          · rw [e]
            by_cases hf : a.falsy = true
            · rw [if_pos hf]
              exact ⟨.andLeft hla (h1 ▸ ih1.1) ((countsFalse_iff a).1 hf), ih1.2.1, fun v e => by cases e; exact ih1.2.2 a h1⟩
            · rw [if_neg hf]
              have ih2 := runs_total c r _ ih1.2.1
              exact ⟨.andRight hla (h1 ▸ ih1.1) (fun h => hf ((countsFalse_iff a).2 h)) ih2.1, ih2.2⟩
          · rw [e]; exact ih1.stop hs (fun h => .logicStops (Or.inr hla) h hs)
        · rw [if_neg hla]
          exact ⟨.noOperator hst hlo hla, h, fun a e => (by cases e)⟩
  | .paren e, s, h => by
    have ih := runs_total c e s h
    simp only [evalExpr]
    exact ⟨.paren ih.1, ih.2⟩
  | .ifE co t e, s, h => by
    have ih := runs_total c co s h
    simp only [evalExpr]
    rcases M.bind_split (evalExpr call co) (fun v => (if v.falsy then evalBlock call .null e else evalBlock call .null t : M F (Value F))) s with ⟨a, h1, e'⟩ | ⟨x, hs, e'⟩
    · rw [e']
      by_cases hf : a.falsy = true
      · rw [if_pos hf]
        have ih2 := runsBlock_total c e .null _ .null ih.2.1
        exact ⟨.ifElse (h1 ▸ ih.1) ((countsFalse_iff a).1 hf) ih2.1, ih2.2⟩
      · rw [if_neg hf]
        have ih2 := runsBlock_total c t .null _ .null ih.2.1
        exact ⟨.ifThen (h1 ▸ ih.1) (fun h => hf ((countsFalse_iff a).2 h)) ih2.1, ih2.2⟩
    · rw [e']; exact ih.stop hs (fun h => .ifStops h hs)
  | .call f args, s, h => by
    have ih := runsAll_total c args s h
    simp only [evalExpr]
    rcases M.bind_split (evalList call args) (fun vs => call f vs) s with ⟨vs, h1, e⟩ | ⟨x, hs, e⟩
    · rw [e]
      have ih2 := c.call f ih.2.1 (ih.2.2 vs h1)
      refine ⟨?_, ih2.2⟩
      rcases ih2.1 with ⟨t, hn, hb, es⟩ | ⟨m, as, hn, hx⟩
      · rw [es]; exact .builtin (h1 ▸ ih.1) hn hb
      · exact .request (h1 ▸ ih.1) hn hx
    · rw [e]; exact ih.stop hs (fun h => .callStops h hs)
termination_by structural e => e
theorem runsAll_total (c : Calm net call Inv) : ∀ (es : List (Expr F)) (s : St F), Inv s →
    Fine Inv (fun vs => ∀ v ∈ vs, Proper v) (RunsAll net es s) (evalList call es s)
  | [], s, h => ⟨.nil s, h, fun a e v hv => by cases e; exact absurd hv List.not_mem_nil⟩
  | e :: es, s, h => by
    have ih1 := runs_total c e s h
    simp only [evalList]
    rcases M.bind_split (evalExpr call e) (fun v => (do let vs ← evalList call es; pure (v :: vs) : M F (List (Value F)))) s with ⟨a, h1, e'⟩ | ⟨x, hs, e'⟩
    · rw [e']
      have ih2 := runsAll_total c es _ ih1.2.1
      rcases M.bind_split (evalList call es) (fun vs => (pure (a :: vs) : M F (List (Value F)))) (evalExpr call e s).2 with ⟨vs, h2, e'⟩ | ⟨x, hs, e'⟩
      · rw [e']
        refine ⟨.cons (h1 ▸ ih1.1) (h2 ▸ ih2.1), ih2.2.1, fun ws e v hv => ?_⟩
        cases e
        rcases List.mem_cons.1 hv with e | hv
        · exact e ▸ ih1.2.2 a h1
        · exact ih2.2.2 vs h2 v hv
      · rw [e']; exact ih2.stop hs (fun h => .tail (h1 ▸ ih1.1) h hs)
    · rw [e']; exact ih1.stop hs (fun h => .head h hs)
termination_by structural es => es
theorem runsPairs_total (c : Calm net call Inv) : ∀ (ps : List (Expr F × Expr F)) (acc : List (Str × Value F)) (s : St F), Proper (.map acc) → Inv s →
    ((∃ vs, RunsAll net (flatten ps) s (.ok vs) (evalPairs call acc ps s).2 ∧ (evalPairs call acc ps s).1 = .ok (amExtend acc (keyed vs)) ∧
        Proper (.map (amExtend acc (keyed vs)))) ∨
      ∃ y, RunsAll net (flatten ps) s y (evalPairs call acc ps s).2 ∧ Stops y (evalPairs call acc ps s).1) ∧
    Inv (evalPairs call acc ps s).2
  | [], acc, s, hp, h => ⟨Or.inl ⟨[], .nil s, rfl, hp⟩, h⟩
  | (k, v) :: ps, acc, s, hp, h => by
    have ih1 := runs_total c k s h
    simp only [evalPairs, flatten]
    rcases M.bind_split (evalExpr call k) (fun k => (do let v ← evalExpr call v; evalPairs call (amInsert k.display v acc) ps : M F (List (Str × Value F)))) s with ⟨a, h1, e'⟩ | ⟨x, hs, e'⟩
    · rw [e']
      have ih2 := runs_total c v _ ih1.2.1
      rcases M.bind_split (evalExpr call v) (fun v => (evalPairs call (amInsert a.display v acc) ps : M F (List (Str × Value F)))) (evalExpr call k s).2 with ⟨b, h2, e'⟩ | ⟨x, hs, e'⟩
      · rw [e']
        have ih3 := runsPairs_total c ps (amInsert a.display b acc) _ (proper_insert hp (ih2.2.2 b h2)) ih2.2.1
        refine ⟨?_, ih3.2⟩
        rcases ih3.1 with ⟨vs, hr, hv, hp⟩ | ⟨y, hr, hs⟩
        · exact Or.inl ⟨a :: b :: vs, .cons (h1 ▸ ih1.1) (.cons (h2 ▸ ih2.1) hr), hv, hp⟩
        · refine Or.inr ⟨y, .tail (h1 ▸ ih1.1) (.tail (h2 ▸ ih2.1) hr (?_ : Stops y y)) ?_, hs⟩ <;>
            (generalize (evalPairs call _ ps _).1 = z at hs; cases hs <;> constructor)
      · rw [e']
        refine ⟨Or.inr ?_, ih2.2.1⟩
        have hb := ih2.1
        generalize (evalExpr call v (evalExpr call k s).2).1 = z at hs hb
        cases hs with
        | err m => exact ⟨_, .tail (h1 ▸ ih1.1) (.head hb (.err m)) (.err m), .err m⟩
        | panic => exact ⟨_, .tail (h1 ▸ ih1.1) (.head hb .panic) .panic, .panic⟩
        | hang => exact ⟨_, .tail (h1 ▸ ih1.1) (.head hb .hang) .hang, .hang⟩
    · rw [e']
      refine ⟨Or.inr ?_, ih1.2.1⟩
      have ha := ih1.1
      generalize (evalExpr call k s).1 = z at hs ha
      cases hs with
      | err m => exact ⟨_, .head ha (.err m), .err m⟩
      | panic => exact ⟨_, .head ha .panic, .panic⟩
      | hang => exact ⟨_, .head ha .hang, .hang⟩
termination_by structural ps => ps
theorem runsBlock_total (c : Calm net call Inv) : ∀ (es : List (Expr F)) (acc : Value F) (s : St F), Proper acc → Inv s →
    Fine Inv Proper (RunsBlock net acc es s) (evalBlock call acc es s)
  | [], acc, s, hp, h => ⟨.nil acc s, h, fun a e => by cases e; exact hp⟩
  | e :: es, acc, s, hp, h => by
    have ih1 := runs_total c e s h
    simp only [evalBlock]
    rcases M.bind_split (evalExpr call e) (fun v => (evalBlock call v es : M F (Value F))) s with ⟨a, h1, e'⟩ | ⟨x, hs, e'⟩
    · rw [e']
      have ih2 := runsBlock_total c es a _ (ih1.2.2 a h1) ih1.2.1
      exact ⟨.cons (h1 ▸ ih1.1) ih2.1, ih2.2⟩
    · rw [e']; exact ih1.stop hs (fun h => .stops h hs)
termination_by structural es => es
end

/-- An operand of an assert. -/
theorem orElse_split (x : M F (Value F)) (s : St F) :
    (∃ v, Operand (x s).1 v ∧ (x.orElse .null) s = (.ok v, (x s).2)) ∨
    ((∀ e, (x s).1 ≠ .err e) ∧ Stops (x s).1 (x s).1 ∧ (x.orElse .null) s = ((x s).1, (x s).2)) := by
  unfold M.orElse
  match x s with
  | (.ok a, s') => exact Or.inl ⟨a, .value a, rfl⟩
  | (.err e, s') => exact Or.inl ⟨.null, .error e, rfl⟩
  | (.panic, s') => exact Or.inr ⟨fun e h => (by cases h), .panic, rfl⟩
  | (.hang, s') => exact Or.inr ⟨fun e h => (by cases h), .hang, rfl⟩

theorem Spec.Stops.cast {α β : Type} {x y : Res α} (h : Stops x y) : ∃ r : Res β, Stops x r := by
  cases h with
  | err e => exact ⟨_, .err e⟩
  | panic => exact ⟨_, .panic⟩
  | hang => exact ⟨_, .hang⟩

theorem checks_total (c : Calm net call Inv) : ∀ (es : List (Expr F)) (s : St F), Inv s →
    Fine Inv (fun _ => True) (Checks net es s) (evalAsserts call es s) := by
  intro es
  induction es with
  | nil => intro s h; exact ⟨.nil s, h, fun _ _ => trivial⟩
  | cons x es ih =>
    intro s h
    by_cases hx : ∃ t a b, x = .binary t a b
    · obtain ⟨t, a, b, rfl⟩ := hx
      simp only [evalAsserts]
      have iha := runs_total c a s h
      rcases orElse_split (evalExpr call a) s with ⟨v, hv, ea⟩ | ⟨hne, hs, ea⟩
      · rw [M.bind_ok ea]
        have ihb := runs_total c b _ iha.2.1
        rcases orElse_split (evalExpr call b) (evalExpr call a s).2 with ⟨w, hw, eb⟩ | ⟨hne, hs, eb⟩
        · rw [M.bind_ok eb]
          have ihr := ih _ ihb.2.1
          have hpv : Proper v := by
            have := iha.2.2
            generalize (evalExpr call a s).1 = z at hv this
            cases hv with
            | value _ => exact this v rfl
            | error _ => exact .null
          have hpw : Proper w := by
            have := ihb.2.2
            generalize (evalExpr call b (evalExpr call a s).2).1 = z at hw this
            cases hw with
            | value _ => exact this w rfl
            | error _ => exact .null
          rcases comparison_iff t.kind hpv hpw with ⟨h2, h3⟩ | ⟨p, r, h2, h3, h4⟩
          · simp only [h3]
            rcases M.bind_split (evalAsserts call es) (fun as => (pure as : M F (List Assert))) (evalExpr call b (evalExpr call a s).2).2 with ⟨as, h1, e⟩ | ⟨r, hs, e⟩
            · rw [e]
              exact ⟨.dropped iha.1 hv ihb.1 hw h2 (h1 ▸ ihr.1), ihr.2.1, fun _ _ => trivial⟩
            · rw [e]
              exact ⟨.restStops iha.1 hv ihb.1 hw ihr.1 hs, ihr.2.1, fun _ _ => trivial⟩
          · simp only [h3]
            rcases M.bind_split (evalAsserts call es) (fun as => (pure (⟨a.display ++ c!" " ++ t.literal ++ c!" " ++ b.display, v.display, t.literal, w.display, r⟩ :: as) : M F (List Assert))) (evalExpr call b (evalExpr call a s).2).2 with ⟨as, h1, e⟩ | ⟨r, hs, e⟩
            · rw [e]
              exact ⟨.recorded iha.1 hv ihb.1 hw h2 h4 (h1 ▸ ihr.1), ihr.2.1, fun _ _ => trivial⟩
            · rw [e]
              exact ⟨.restStops iha.1 hv ihb.1 hw ihr.1 hs, ihr.2.1, fun _ _ => trivial⟩
        · obtain ⟨r, hr⟩ := hs.cast (β := List Assert)
          rw [M.bind_stops eb hr]
          exact ⟨.rightStops iha.1 hv ihb.1 hne hr, ihb.2.1, fun _ _ => trivial⟩
      · obtain ⟨r, hr⟩ := hs.cast (β := List Assert)
        rw [M.bind_stops ea hr]
        exact ⟨.leftStops iha.1 hne hr, iha.2.1, fun _ _ => trivial⟩
    · have e : evalAsserts call (x :: es) = evalAsserts call es := by
        cases x <;> first | exact absurd ⟨_, _, _, rfl⟩ hx | rfl
      rw [e]
      have := ih s h
      exact ⟨.other (fun t a b h => hx ⟨t, a, b, h⟩) this.1, this.2⟩

end

end Am
