import Verif.Proofs.Semantics
/-! # C63: the evaluator and the rules of the language agree -/
set_option linter.unusedSimpArgs false
set_option linter.unusedSectionVars false
namespace Am
open Spec
variable {F : Type} [Rt F]

theorem render_places (ctx : Context F) (message : Str) :
    ∃ ps, Pieces message ps ∧ (∀ qs, Pieces message qs → qs = ps) ∧ render ctx message = fillBy (textOf ctx.inner) ps := by
  obtain ⟨ps, h1, h2, h3⟩ := c27_render ctx message
  refine ⟨ps, h1, h2, ?_⟩
  rw [h3]
  congr 1

theorem calm_local (net : Net) (n : Nat) : Calm (F := F) net (callAt net n) (fun s => s.ctx.requests = [] ∧ Proper (.map s.ctx.inner)) where
  vars h := h.2
  write n v h hv := ⟨h.1, proper_insert h.2 hv⟩
  call f vs s h hvs := by
    rw [callAt_noRequests _ _ _ _ _ h.1]
    obtain ⟨r, t, hb⟩ := builtin_total f vs
    rw [builtin_sound hb s]
    exact ⟨Or.inl ⟨t, by rw [h.1]; rfl, hb, rfl⟩, h, fun v e => by cases e; exact builtin_proper hvs hb⟩

/-- The variables of a state. -/
abbrev Sound (s : St F) : Prop := Proper (.map s.ctx.inner)

theorem exchanges_total (net : Net) (f message : Str) (asserts : List (Expr F)) (s : St F) (h : Sound s) :
    Fine Sound Proper (Exchanges net f message asserts s) (callRequest net (callAt net 0) f message asserts s) := by
  obtain ⟨ps, hp, -, ht⟩ := render_places s.ctx message
  unfold callRequest
  rw [M.bind_ok (m := M.get) (s' := s) (a := s) rfl]
  dsimp only
  rw [M.bind_ok (M.modify_run _ _)]
  rcases M.bind_split (M.lift (send net s.sent (render s.ctx message))) (fun p => (do
    let (request, response, time, error) := p
    let map ← M.lift (response.toMap (F := F))
    let (as, inner) ← inLocal map (evalAsserts (callAt net 0) asserts)
    M.modify fun s => { s with ctx := s.ctx.push ⟨f, time, request, response, as, error⟩ }
    pure (.map inner) : M F (Value F))) { s with sent := s.sent ++ [render s.ctx message] } with ⟨⟨rq, rs, t, e⟩, h1, eq⟩ | ⟨r, hs, eq⟩
  · refine Eq.mpr (congrArg _ eq) ?_
    dsimp only
    have h1 : send net s.sent (render s.ctx message) = .ok (rq, rs, t, e) := h1
    rcases M.bind_split (M.lift (rs.toMap (F := F))) (fun map => (do
      let (as, inner) ← inLocal map (evalAsserts (callAt net 0) asserts)
      M.modify fun s => { s with ctx := s.ctx.push ⟨f, t, rq, rs, as, e⟩ }
      pure (.map inner) : M F (Value F))) { s with sent := s.sent ++ [render s.ctx message] } with ⟨map, h2, eq⟩ | ⟨r, hs, eq⟩
    · refine Eq.mpr (congrArg _ eq) ?_
      have h2 : rs.toMap (F := F) = .ok map := h2
      have ih := checks_total (calm_local net 0) asserts ⟨Context.ofMap map, s.sent ++ [render s.ctx message], s.out⟩ ⟨rfl, toMap_proper h2⟩
      match h5 : evalAsserts (callAt net 0) asserts ⟨Context.ofMap map, s.sent ++ [render s.ctx message], s.out⟩ with
      | (.ok as, s') =>
        rw [h5] at ih
        rw [M.bind_ok (s' := { s' with ctx := s.ctx }) (a := (as, s'.ctx.inner)) (by simp only [inLocal, M.lift, h5])]
        exact ⟨.done hp ht h1 h2 ih.1, h, fun v e => by cases e; exact ih.2.1.2⟩
      | (.err e, s') =>
        rw [h5] at ih
        rw [M.bind_err (e := e) (s' := { s' with ctx := s.ctx }) (by simp only [inLocal, M.lift, h5])]
        exact ⟨.assertStops hp ht h1 h2 ih.1 (.err e), h, fun v e => (by cases e)⟩
      | (.panic, s') =>
        rw [h5] at ih
        rw [M.bind_panic (s' := { s' with ctx := s.ctx }) (by simp only [inLocal, M.lift, h5])]
        exact ⟨.assertStops hp ht h1 h2 ih.1 .panic, h, fun v e => (by cases e)⟩
      | (.hang, s') =>
        rw [h5] at ih
        rw [M.bind_hang (s' := { s' with ctx := s.ctx }) (by simp only [inLocal, M.lift, h5])]
        exact ⟨.assertStops hp ht h1 h2 ih.1 .hang, h, fun v e => (by cases e)⟩
    · refine Eq.mpr (congrArg _ eq) ?_
      exact ⟨.mapStops hp ht h1 hs, h, fun v e => absurd e (hs.not_ok.2 v)⟩
  · refine Eq.mpr (congrArg _ eq) ?_
    exact ⟨.sendStops hp ht hs, h, fun v e => absurd e (hs.not_ok.2 v)⟩

theorem calm (net : Net) : Calm (F := F) net (callAt net 1) Sound where
  vars h := h
  write n v h hv := proper_insert h hv
  call f vs s h hvs := by
    cases hr : s.ctx.request f with
    | none =>
      rw [callAt_none net vs hr]
      obtain ⟨r, t, hb⟩ := builtin_total f vs
      rw [builtin_sound hb s]
      exact ⟨Or.inl ⟨t, hr, hb, rfl⟩, h, fun v e => by cases e; exact builtin_proper hvs hb⟩
    | some p =>
      obtain ⟨m, as⟩ := p
      rw [callAt_some net vs hr]
      have := exchanges_total net f m as s h
      exact ⟨Or.inr ⟨m, as, hr, this.1⟩, this.2⟩

section
variable {net : Net}

theorem after_expr {e : Expr F} {s s' : St F} {r : Res (Value F)} (h : Sound s) (hx : evalExpr (callAt net 1) e s = (r, s')) :
    Sound s' ∧ ∀ v, r = .ok v → Proper v := by
  have := runs_total (calm net) e s h
  rw [hx] at this
  exact this.2

theorem after_list {es : List (Expr F)} {s s' : St F} {r : Res (List (Value F))} (h : Sound s) (hx : evalList (callAt net 1) es s = (r, s')) :
    Sound s' ∧ ∀ vs, r = .ok vs → ∀ v ∈ vs, Proper v := by
  have := runsAll_total (calm net) es s h
  rw [hx] at this
  exact this.2

theorem pair_run {l i : Expr F} {s s' : St F} {a b : Value F} (op : Value F → Value F → Res (Value F))
    (h : evalList (callAt net 1) [l, i] s = (.ok [a, b], s')) :
    (do let v ← evalExpr (callAt net 1) l; let i ← evalExpr (callAt net 1) i; M.lift (op v i) : M F (Value F)) s = (op a b, s') := by
  simp only [evalList] at h
  obtain ⟨x, s1, h1, h2⟩ := M.bind_ok_inv h
  obtain ⟨xs, s2, h3, h4⟩ := M.bind_ok_inv h2
  obtain ⟨y, s3, h5, h6⟩ := M.bind_ok_inv h3
  cases h4
  obtain ⟨ys, s4, h7, h8⟩ := M.bind_ok_inv h6
  cases h8
  cases h7
  rw [M.bind_ok h1, M.bind_ok h5]
  rfl

theorem pair_stop {l i : Expr F} {s s' : St F} {x : Res (List (Value F))} {r : Res (Value F)} (op : Value F → Value F → Res (Value F))
    (h : evalList (callAt net 1) [l, i] s = (x, s')) (hs : Stops x r) :
    (do let v ← evalExpr (callAt net 1) l; let i ← evalExpr (callAt net 1) i; M.lift (op v i) : M F (Value F)) s = (r, s') := by
  simp only [evalList] at h
  match h1 : evalExpr (callAt net 1) l s with
  | (.ok a, s1) =>
    rw [M.bind_ok h1] at h ⊢
    match h2 : evalExpr (callAt net 1) i s1 with
    | (.ok b, s2) =>
      rw [M.bind_ok (a := [b]) (s' := s2)] at h
      · cases h; cases hs
      · rw [M.bind_ok h2]; rfl
    | (.err e, s2) =>
      rw [M.bind_err (M.bind_err h2)] at h
      cases h; cases hs; exact M.bind_err h2
    | (.panic, s2) =>
      rw [M.bind_panic (M.bind_panic h2)] at h
      cases h; cases hs; exact M.bind_panic h2
    | (.hang, s2) =>
      rw [M.bind_hang (M.bind_hang h2)] at h
      cases h; cases hs; exact M.bind_hang h2
  | (.err e, s1) =>
    rw [M.bind_err h1] at h ⊢
    cases h; cases hs; rfl
  | (.panic, s1) =>
    rw [M.bind_panic h1] at h ⊢
    cases h; cases hs; rfl
  | (.hang, s1) =>
    rw [M.bind_hang h1] at h ⊢
    cases h; cases hs; rfl

/-- A map literal evaluates its keys and values like a list of expressions. -/
theorem pairs_run : ∀ (ps : List (Expr F × Expr F)) (acc : List (Str × Value F)) (s s' : St F) (x : Res (List (Value F))),
    evalList (callAt net 1) (flatten ps) s = (x, s') →
    (∀ vs, x = .ok vs → evalPairs (callAt net 1) acc ps s = (.ok (amExtend acc (keyed vs)), s')) ∧
    (∀ r, Stops x r → evalPairs (callAt net 1) acc ps s = (r, s')) := by
  intro ps
  induction ps with
  | nil =>
    intro acc s s' x h
    have h : ((.ok [], s) : Res (List (Value F)) × St F) = (x, s') := h
    cases h
    exact ⟨fun vs e => by cases e; rfl, fun r hs => (by cases hs)⟩
  | cons p ps ih =>
    obtain ⟨k, v⟩ := p
    intro acc s s' x h
    simp only [flatten, evalList] at h
    simp only [evalPairs]
    match h1 : evalExpr (callAt net 1) k s with
    | (.ok a, s1) =>
      rw [M.bind_ok h1] at h ⊢
      match h2 : evalExpr (callAt net 1) v s1 with
      | (.ok b, s2) =>
        rw [M.bind_ok h2]
        match h3 : evalList (callAt net 1) (flatten ps) s2 with
        | (.ok vs, s3) =>
          rw [M.bind_ok (a := b :: vs) (s' := s3)] at h
          · cases h
            refine ⟨fun ws e => ?_, fun r hs => (by cases hs)⟩
            cases e
            exact (ih _ _ _ _ h3).1 vs rfl
          · rw [M.bind_ok h2, M.bind_ok h3]; rfl
        | (.err e, s3) =>
          rw [M.bind_err (e := e) (s' := s3)] at h
          · cases h
            exact ⟨fun ws e => (by cases e), fun r hs => by cases hs; exact (ih _ _ _ _ h3).2 _ (.err _)⟩
          · rw [M.bind_ok h2, M.bind_err h3]
        | (.panic, s3) =>
          rw [M.bind_panic (s' := s3)] at h
          · cases h
            exact ⟨fun ws e => (by cases e), fun r hs => by cases hs; exact (ih _ _ _ _ h3).2 _ .panic⟩
          · rw [M.bind_ok h2, M.bind_panic h3]
        | (.hang, s3) =>
          rw [M.bind_hang (s' := s3)] at h
          · cases h
            exact ⟨fun ws e => (by cases e), fun r hs => by cases hs; exact (ih _ _ _ _ h3).2 _ .hang⟩
          · rw [M.bind_ok h2, M.bind_hang h3]
      | (.err e, s2) =>
        rw [M.bind_err (M.bind_err h2)] at h
        cases h
        exact ⟨fun ws e => (by cases e), fun r hs => by cases hs; exact M.bind_err h2⟩
      | (.panic, s2) =>
        rw [M.bind_panic (M.bind_panic h2)] at h
        cases h
        exact ⟨fun ws e => (by cases e), fun r hs => by cases hs; exact M.bind_panic h2⟩
      | (.hang, s2) =>
        rw [M.bind_hang (M.bind_hang h2)] at h
        cases h
        exact ⟨fun ws e => (by cases e), fun r hs => by cases hs; exact M.bind_hang h2⟩
    | (.err e, s1) =>
      rw [M.bind_err h1] at h ⊢
      cases h
      exact ⟨fun ws e => (by cases e), fun r hs => by cases hs; rfl⟩
    | (.panic, s1) =>
      rw [M.bind_panic h1] at h ⊢
      cases h
      exact ⟨fun ws e => (by cases e), fun r hs => by cases hs; rfl⟩
    | (.hang, s1) =>
      rw [M.bind_hang h1] at h ⊢
      cases h
      exact ⟨fun ws e => (by cases e), fun r hs => by cases hs; rfl⟩

theorem callAt_request {f message : Str} {asserts : List (Expr F)} (vs : List (Value F)) {s : St F}
    (h : amGet f s.ctx.requests = some (message, asserts)) :
    callAt net 1 f vs s = callRequest net (callAt net 1) f message asserts s := by
  have h : s.ctx.request f = some (message, asserts) := h
  have e : callAt net (1 + 1) f vs s = match s.ctx.request f with
    | some (message, asserts) => callRequest net (callAt net 1) f message asserts s
    | none => callNative f vs s := rfl
  rw [← c13_no_nesting (F := F) net 1, e, h]
  simp only
  rw [c13_no_nesting (F := F) net 1]

theorem operand_orElse {x : M F (Value F)} {s s' : St F} {r : Res (Value F)} {v : Value F} (h : x s = (r, s')) (ho : Operand r v) :
    (x.orElse .null) s = (.ok v, s') := by
  unfold M.orElse
  rw [h]
  cases ho <;> rfl

theorem stop_orElse {x : M F (Value F)} {s s' : St F} {r : Res (Value F)} (h : x s = (r, s')) (ho : ∀ e, r ≠ .err e) :
    (x.orElse .null) s = (r, s') := by
  unfold M.orElse
  rw [h]
  cases r with
  | err e => exact absurd rfl (ho e)
  | _ => rfl

theorem operand_proper {r : Res (Value F)} {v : Value F} (h : ∀ v, r = .ok v → Proper v) (ho : Operand r v) : Proper v := by
  cases ho with
  | value => exact h v rfl
  | error => exact .null

mutual
theorem runs_sound : ∀ {e : Expr F} {s s' : St F} {r : Res (Value F)}, Runs net e s r s' → Sound s → evalExpr (callAt net 1) e s = (r, s')
  | _, _, _, _, .int _ _, _ => rfl
  | _, _, _, _, .float _ _, _ => rfl
  | _, _, _, _, .bool _ _, _ => rfl
  | _, _, _, _, .str _ _, _ => rfl
  | _, _, _, _, .arr h, hs => by simp only [evalExpr]; rw [M.bind_ok (runsAll_sound h hs)]; rfl
  | _, _, _, _, .arrStops h hx, hs => by simp only [evalExpr]; exact M.bind_stops (runsAll_sound h hs) hx
  | _, _, _, _, .map (ps := ps) (vs := vs) h, hs => by
    simp only [evalExpr]
    rw [M.bind_ok ((pairs_run ps [] _ _ _ (runsAll_sound h hs)).1 vs rfl)]
    rfl
  | _, _, _, _, .mapStops (ps := ps) h hx, hs => by
    have h1 := pairs_run ps [] _ _ _ (runsAll_sound h hs)
    simp only [evalExpr]
    cases hx with
    | err e => exact M.bind_err (h1.2 _ (.err e))
    | panic => exact M.bind_panic (h1.2 _ .panic)
    | hang => exact M.bind_hang (h1.2 _ .hang)
  | _, _, _, _, .index h hi, hs => by
    simp only [evalExpr]
    rw [(indexes_iff _ _ _).1 hi]
    exact pair_run indexValue (runsAll_sound h hs)
  | _, _, _, _, .indexStops h hx, hs => by
    simp only [evalExpr]
    exact pair_stop indexValue (runsAll_sound h hs) hx
  | _, _, _, _, .field h hf, hs => by
    simp only [evalExpr]
    rw [M.bind_ok (runs_sound h hs), (fields_iff _ _ _).1 hf]
    rfl
  | _, _, _, _, .fieldStops h hx, hs => by simp only [evalExpr]; exact M.bind_stops (runs_sound h hs) hx
  | _, s, _, _, .ident (n := n) h, hs => by
    have h : s.ctx.get n = _ := h
    simp only [evalExpr]; rw [h]
  | _, s, _, _, .unbound (n := n) h, hs => by
    have h : s.ctx.get n = _ := h
    simp only [evalExpr]; rw [h]
  | _, _, _, _, .letE h, hs => by simp only [evalExpr]; rw [M.bind_ok (runs_sound h hs)]; rfl
  | _, _, _, _, .letStops h hx, hs => by simp only [evalExpr]; exact M.bind_stops (runs_sound h hs) hx
  | _, _, _, _, .unary h hf, hs => by
    simp only [evalExpr]
    rw [M.bind_ok (runs_sound h hs), (negates_iff _ _ _).1 hf]
    rfl
  | _, _, _, _, .unaryStops h hx, hs => by simp only [evalExpr]; exact M.bind_stops (runs_sound h hs) hx
  | _, _, _, _, .binary (t := t) (a := a) (b := b) hst h ho, hs => by
    obtain ⟨op, hop⟩ := (strict_iff (F := F) t.kind).1 hst
    have hl := runsAll_sound h hs
    have hp := (after_list hs hl).2 _ rfl
    simp only [evalExpr]
    rw [hop]
    rw [(operates_iff hop (hp a (by simp)) (hp b (by simp)) _).1 ho]
    exact pair_run op hl
  | _, _, _, _, .binaryStops (t := t) hst h hx, hs => by
    obtain ⟨op, hop⟩ := (strict_iff (F := F) t.kind).1 hst
    simp only [evalExpr]
    rw [hop]
    exact pair_stop op (runsAll_sound h hs) hx
  | _, _, _, _, .orLeft ht h hf, hs => by
    simp only [evalExpr]
    rw [ht]
    simp only [binaryOp, if_true]
    rw [M.bind_ok (runs_sound h hs), if_neg (fun h => hf ((countsFalse_iff _).1 h))]
    rfl
  | _, _, _, _, .orRight ht h hf h2, hs => by
    have h1 := runs_sound h hs
    simp only [evalExpr]
    rw [ht]
    simp only [binaryOp, if_true]
    rw [M.bind_ok h1, if_pos ((countsFalse_iff _).2 hf)]
    exact runs_sound h2 (after_expr hs h1).1
  | _, _, _, _, .andLeft ht h hf, hs => by
    simp only [evalExpr]
    rw [ht]
    simp only [binaryOp, if_true, reduceCtorEq, if_false]
    rw [M.bind_ok (runs_sound h hs), if_pos ((countsFalse_iff _).2 hf)]
    rfl
  | _, _, _, _, .andRight ht h hf h2, hs => by
    have h1 := runs_sound h hs
    simp only [evalExpr]
    rw [ht]
    simp only [binaryOp, if_true, reduceCtorEq, if_false]
    rw [M.bind_ok h1, if_neg (fun h => hf ((countsFalse_iff _).1 h))]
    exact runs_sound h2 (after_expr hs h1).1
  | _, _, _, _, .logicStops ht h hx, hs => by
    have h1 := runs_sound h hs
    simp only [evalExpr]
    rcases ht with ht | ht <;> rw [ht] <;> simp only [binaryOp, if_true, reduceCtorEq, if_false]
    · exact M.bind_stops h1 hx
    · exact M.bind_stops h1 hx
  | _, _, _, _, .noOperator (t := t) hst h1 h2, hs => by
    have : binaryOp (F := F) t.kind = none := by
      cases h : binaryOp (F := F) t.kind with
      | none => rfl
      | some op => exact absurd ((strict_iff (F := F) t.kind).2 ⟨op, h⟩) hst
    simp only [evalExpr]
    rw [this]
    simp only
    rw [if_neg h1, if_neg h2]
    rfl
  | _, _, _, _, .paren h, hs => by simp only [evalExpr]; exact runs_sound h hs
  | _, _, _, _, .ifThen h hf h2, hs => by
    have h1 := runs_sound h hs
    simp only [evalExpr]
    rw [M.bind_ok h1, if_neg (fun h => hf ((countsFalse_iff _).1 h))]
    exact runsBlock_sound h2 (after_expr hs h1).1
  | _, _, _, _, .ifElse h hf h2, hs => by
    have h1 := runs_sound h hs
    simp only [evalExpr]
    rw [M.bind_ok h1, if_pos ((countsFalse_iff _).2 hf)]
    exact runsBlock_sound h2 (after_expr hs h1).1
  | _, _, _, _, .ifStops h hx, hs => by simp only [evalExpr]; exact M.bind_stops (runs_sound h hs) hx
  | _, _, _, _, .builtin h hn hb, hs => by
    simp only [evalExpr]
    rw [M.bind_ok (runsAll_sound h hs), callAt_none net _ hn]
    exact builtin_sound hb _
  | _, _, _, _, .request (s1 := s1) h hn hx, hs => by
    have h1 := runsAll_sound h hs
    simp only [evalExpr]
    rw [M.bind_ok h1, callAt_request _ hn]
    exact exchanges_sound hx (after_list hs h1).1
  | _, _, _, _, .callStops h hx, hs => by simp only [evalExpr]; exact M.bind_stops (runsAll_sound h hs) hx
theorem runsAll_sound : ∀ {es : List (Expr F)} {s s' : St F} {r : Res (List (Value F))}, RunsAll net es s r s' → Sound s →
    evalList (callAt net 1) es s = (r, s')
  | _, _, _, _, .nil _, _ => rfl
  | _, _, _, _, .cons h h2, hs => by
    have h1 := runs_sound h hs
    simp only [evalList]
    rw [M.bind_ok h1, M.bind_ok (runsAll_sound h2 (after_expr hs h1).1)]
    rfl
  | _, _, _, _, .head h hx, hs => by simp only [evalList]; exact M.bind_stops (runs_sound h hs) hx
  | _, _, _, _, .tail h h2 hx, hs => by
    have h1 := runs_sound h hs
    simp only [evalList]
    rw [M.bind_ok h1]
    exact M.bind_stops (runsAll_sound h2 (after_expr hs h1).1) hx
theorem runsBlock_sound : ∀ {v : Value F} {es : List (Expr F)} {s s' : St F} {r : Res (Value F)}, RunsBlock net v es s r s' → Sound s →
    evalBlock (callAt net 1) v es s = (r, s')
  | _, _, _, _, _, .nil _ _, _ => rfl
  | _, _, _, _, _, .cons h h2, hs => by
    have h1 := runs_sound h hs
    simp only [evalBlock]
    rw [M.bind_ok h1]
    exact runsBlock_sound h2 (after_expr hs h1).1
  | _, _, _, _, _, .stops h hx, hs => by simp only [evalBlock]; exact M.bind_stops (runs_sound h hs) hx
theorem exchanges_sound : ∀ {f message : Str} {asserts : List (Expr F)} {s s' : St F} {r : Res (Value F)},
    Exchanges net f message asserts s r s' → Sound s → callRequest net (callAt net 1) f message asserts s = (r, s')
  | _, message, _, s, _, _, .sendStops hp ht hx, hs => by
    obtain ⟨qs, -, hq, he⟩ := render_places s.ctx message
    rw [hq _ hp] at ht
    rw [ht, ← he] at hx ⊢
    unfold callRequest
    rw [M.bind_ok (m := M.get) (s' := s) (a := s) rfl]
    dsimp only
    rw [M.bind_ok (M.modify_run _ _)]
    exact M.bind_stops (M.lift_run _ _) hx
  | _, message, _, s, _, _, .mapStops hp ht h1 hx, hs => by
    obtain ⟨qs, -, hq, he⟩ := render_places s.ctx message
    rw [hq _ hp] at ht
    rw [ht, ← he] at h1 ⊢
    unfold callRequest
    rw [M.bind_ok (m := M.get) (s' := s) (a := s) rfl]
    dsimp only
    rw [M.bind_ok (M.modify_run _ _), h1, M.bind_ok (M.lift_run _ _)]
    exact M.bind_stops (M.lift_run _ _) hx
  | _, message, _, s, _, _, .assertStops (s' := s') hp ht h1 h2 hc hx, hs => by
    have hc := checks_sound hc (toMap_proper h2)
    obtain ⟨qs, -, hq, he⟩ := render_places s.ctx message
    rw [hq _ hp] at ht
    rw [ht, ← he] at h1 hc
    unfold callRequest
    rw [M.bind_ok (m := M.get) (s' := s) (a := s) rfl]
    dsimp only
    rw [M.bind_ok (M.modify_run _ _), h1, M.bind_ok (M.lift_run _ _)]
    dsimp only
    rw [h2, M.bind_ok (M.lift_run _ _)]
    have hc' := hc
    cases hx with
    | err e => exact M.bind_err (s' := { s' with ctx := s.ctx }) (by simp only [inLocal, Context.ofMap, hc'])
    | panic => exact M.bind_panic (s' := { s' with ctx := s.ctx }) (by simp only [inLocal, Context.ofMap, hc'])
    | hang => exact M.bind_hang (s' := { s' with ctx := s.ctx }) (by simp only [inLocal, Context.ofMap, hc'])
  | _, message, _, s, _, _, .done (as := as) (s' := s') hp ht h1 h2 hc, hs => by
    have hc := checks_sound hc (toMap_proper h2)
    obtain ⟨qs, -, hq, he⟩ := render_places s.ctx message
    rw [hq _ hp] at ht
    rw [ht, ← he] at h1 hc
    unfold callRequest
    rw [M.bind_ok (m := M.get) (s' := s) (a := s) rfl]
    dsimp only
    rw [M.bind_ok (M.modify_run _ _), h1, M.bind_ok (M.lift_run _ _)]
    dsimp only
    rw [h2, M.bind_ok (M.lift_run _ _)]
    rw [M.bind_ok (a := (as, s'.ctx.inner)) (s' := { s' with ctx := s.ctx }) (by simp only [inLocal, Context.ofMap, hc])]
    rfl
theorem checks_sound : ∀ {es : List (Expr F)} {s s' : St F} {r : Res (List Assert)}, Checks net es s r s' → Sound s →
    evalAsserts (callAt net 1) es s = (r, s')
  | _, _, _, _, .nil _, _ => rfl
  | _, _, _, _, .other (e := e) (es := es) hn h, hs => by
    have : evalAsserts (callAt net 1) (e :: es) = evalAsserts (callAt net 1) es := by
      cases e <;> first | exact absurd rfl (hn _ _ _) | rfl
    rw [this]
    exact checks_sound h hs
  | _, _, _, _, .leftStops h hn hx, hs => by
    simp only [evalAsserts]
    exact M.bind_stops (stop_orElse (runs_sound h hs) hn) hx
  | _, _, _, _, .rightStops h ho h2 hn hx, hs => by
    have h1 := runs_sound h hs
    simp only [evalAsserts]
    rw [M.bind_ok (operand_orElse h1 ho)]
    exact M.bind_stops (stop_orElse (runs_sound h2 (after_expr hs h1).1) hn) hx
  | _, _, _, _, .restStops h ho h2 ho2 h3 hx, hs => by
    have h1 := runs_sound h hs
    have hs1 := (after_expr hs h1).1
    have h2 := runs_sound h2 hs1
    simp only [evalAsserts]
    rw [M.bind_ok (operand_orElse h1 ho), M.bind_ok (operand_orElse h2 ho2)]
    exact M.bind_stops (checks_sound h3 (after_expr hs1 h2).1) hx
  | _, _, _, _, .recorded (t := t) (result := result) h ho h2 ho2 hc hr h3, hs => by
    have h1 := runs_sound h hs
    have hs1 := (after_expr hs h1)
    have h2 := runs_sound h2 hs1.1
    have hs2 := (after_expr hs1.1 h2)
    rcases comparison_iff t.kind (operand_proper hs1.2 ho) (operand_proper hs2.2 ho2) with ⟨e, -⟩ | ⟨p, r, e1, e2, e3⟩
    · rw [e] at hc; cases hc
    · rw [e1] at hc
      cases hc
      have : r = result := by rw [Bool.eq_iff_iff, e3, hr]
      subst this
      simp only [evalAsserts]
      rw [M.bind_ok (operand_orElse h1 ho), M.bind_ok (operand_orElse h2 ho2), M.bind_ok (checks_sound h3 hs2.1)]
      simp only [e2]
      rfl
  | _, _, _, _, .dropped (t := t) h ho h2 ho2 hc h3, hs => by
    have h1 := runs_sound h hs
    have hs1 := (after_expr hs h1)
    have h2 := runs_sound h2 hs1.1
    have hs2 := (after_expr hs1.1 h2)
    rcases comparison_iff t.kind (operand_proper hs1.2 ho) (operand_proper hs2.2 ho2) with ⟨-, e⟩ | ⟨p, r, e1, -, -⟩
    · simp only [evalAsserts]
      rw [M.bind_ok (operand_orElse h1 ho), M.bind_ok (operand_orElse h2 ho2), M.bind_ok (checks_sound h3 hs2.1)]
      simp only [e]
      rfl
    · rw [e1] at hc; cases hc
end

end

/-- C63: the evaluation of an expression is exactly what the rules of the language say. -/
theorem c63_expr (net : Net) (e : Expr F) (s s' : St F) (r : Res (Value F)) (hs : Proper (.map s.ctx.inner)) :
    Runs net e s r s' ↔ eval net e s = (r, s') := by
  constructor
  · intro h; exact runs_sound h hs
  · intro h
    have := (runs_total (calm net) e s hs).1
    rw [show evalExpr (callAt net 1) e s = (r, s') from h] at this
    exact this

/-- C63: the evaluation of a block is exactly what the rules of the language say. -/
theorem c63_block (net : Net) (block : List (Expr F)) (s s' : St F) (r : Res (Value F)) (hs : Proper (.map s.ctx.inner)) :
    RunsBlock net .null block s r s' ↔ runBlock net block s = (r, s') := by
  constructor
  · intro h; exact runsBlock_sound h hs
  · intro h
    have := (runsBlock_total (calm net) block .null s .null hs).1
    rw [show evalBlock (callAt net 1) .null block s = (r, s') from h] at this
    exact this

/-- C63: by the rules every block has one outcome. -/
theorem c63_unique (net : Net) (block : List (Expr F)) (s : St F) (hs : Proper (.map s.ctx.inner)) :
    ∃ r s', RunsBlock net .null block s r s' ∧ ∀ r2 s2, RunsBlock net .null block s r2 s2 → r2 = r ∧ s2 = s' := by
  refine ⟨_, _, (c63_block net block s _ _ hs).2 rfl, fun r2 s2 h => ?_⟩
  have h := (c63_block net block s _ _ hs).1 h
  exact ⟨(congrArg Prod.fst h).symm, (congrArg Prod.snd h).symm⟩

/-- C63: maps keep distinct keys, in the variables and in the value of the block. -/
theorem c63_proper (net : Net) (block : List (Expr F)) (s : St F) (hs : Proper (.map s.ctx.inner)) :
    Proper (.map (runBlock net block s).2.ctx.inner) ∧ ∀ v, (runBlock net block s).1 = .ok v → Proper v :=
  (runsBlock_total (calm net) block .null s .null hs).2

/-- Concrete case: the variables at the start. -/
example : Proper (.map ([] : List (Str × Value F))) := proper_empty

/-- Concrete case: `let x = 1; if (x > 0) { x - 3 } else { y }` by the rules. -/
example (net : Net) : RunsBlock net .null
    [.letE c!"x" (.int 1), .ifE (.binary ⟨.Gt, c!">"⟩ (.ident c!"x") (.int 0)) [.binary ⟨.Sub, c!"-"⟩ (.ident c!"x") (.int 3)] [.ident c!"y"]]
    (⟨⟨[], [], []⟩, [], []⟩ : St F) (.ok (.int (-2))) ⟨⟨[(c!"x", .int 1)], [], []⟩, [], []⟩ :=
  .cons (.letE (.int _ _)) (.cons (.ifThen (v := .bool true) (.binary (by simp [Strict]) (.cons (.ident rfl) (.cons (.int _ _) (.nil _)))
    (.compares (r := true) rfl (by constructor <;> intro _ <;> first | rfl | exact .intGt (by decide)))) (by rintro (h | h) <;> cases h)
    (.cons (.binary (by simp [Strict]) (.cons (.ident rfl) (.cons (.int _ _) (.nil _)))
      (.computes rfl (show Computes .Sub c!"-" (.int 1) (.int 3) (.ok (.int (-2))) from Or.inl ⟨by unfold Fits; decide, -2, rfl, rfl⟩))) (.nil _ _)))
    (.nil _ _))

end Am
