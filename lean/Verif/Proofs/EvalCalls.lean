import Verif.Proofs.Eval
/-! # Calls: native functions, requests, and evaluation inside asserts -/
set_option linter.unusedSimpArgs false
set_option linter.unusedSectionVars false
namespace Am
open Spec
variable {F : Type} [Rt F]

theorem nativeFormat_fine (vs : List (Value F)) : nativeFormat vs ≠ .hang ∧ nativeFormat vs ≠ .panic := by
  unfold nativeFormat
  split
  · dsimp only
    split <;> simp
  · simp
  · simp

theorem nativeLength_fine (vs : List (Value F)) : nativeLength vs ≠ .hang ∧ nativeLength vs ≠ .panic := by
  unfold nativeLength
  split <;> simp

theorem nativeAppend_fine (vs : List (Value F)) : nativeAppend vs ≠ .hang ∧ nativeAppend vs ≠ .panic := by
  unfold nativeAppend
  split <;> simp

variable {P : {α : Type} → Nat → M F α → M F α → Prop}

/-- A native call belongs to every class that contains printing. -/
theorem callNative_closed (g : Closed P)
    (hout : ∀ t : Str, P 0 (M.modify fun s => { s with out := s.out ++ t }) (M.modify fun s => { s with out := s.out ++ t }))
    (name : Str) (vs : List (Value F)) : P 0 (callNative name vs) (callNative name vs) := by
  unfold callNative
  split
  · refine g.bind (m := 0) (n := 0) (g.lift (nativeFormat_fine _).1 (nativeFormat_fine _).2) ?_
    intro v
    have := hout (v.display ++ c!"\n")
    simp only [← List.append_assoc] at this
    exact g.bind (m := 0) (n := 0) this (fun _ => g.pure _)
  · split
    · refine g.bind (m := 0) (n := 0) (g.lift (nativeFormat_fine _).1 (nativeFormat_fine _).2) ?_
      intro v
      exact g.bind (m := 0) (n := 0) (hout v.display) (fun _ => g.pure _)
    · split
      · exact g.lift (nativeFormat_fine _).1 (nativeFormat_fine _).2
      · split
        · exact g.lift (nativeLength_fine _).1 (nativeLength_fine _).2
        · split
          · exact g.lift (nativeAppend_fine _).1 (nativeAppend_fine _).2
          · exact g.lift (by simp) (by simp)

/-! ## Computations in a context without requests -/

/-- In a context without requests, `x` and `y` do the same: they end, leave the records alone and send nothing, and what they return, which
variables they leave and what they print depends only on the variables at the start. -/
def Local {α : Type} (_ : Nat) (x y : M F α) : Prop :=
  ∀ ctx : Context F, ctx.requests = [] → ∃ r ctx' o, r ≠ Res.hang ∧ ctx'.requests = [] ∧ ctx'.records = ctx.records ∧
    ∀ sent out, x ⟨ctx, sent, out⟩ = (r, ⟨ctx', sent, out ++ o⟩) ∧ y ⟨ctx, sent, out⟩ = (r, ⟨ctx', sent, out ++ o⟩)

theorem local_closed : Closed (F := F) (fun {_} n x y => Local n x y) where
  pure a ctx h := ⟨.ok a, ctx, [], by simp, h, rfl, fun sent out => by simp [M.pure]⟩
  bind {α β m k x y f f'} hx hf ctx h := by
    obtain ⟨r, c1, o1, hr, h1, h2, h3⟩ := hx ctx h
    cases r with
    | ok a =>
      obtain ⟨r', c2, o2, hr', h4, h5, h6⟩ := hf a c1 h1
      refine ⟨r', c2, o1 ++ o2, hr', h4, h5.trans h2, fun sent out => ?_⟩
      rw [M.bind_ok (h3 sent out).1, M.bind_ok (h3 sent out).2, ← List.append_assoc]
      exact h6 sent (out ++ o1)
    | err e =>
      refine ⟨.err e, c1, o1, by simp, h1, h2, fun sent out => ?_⟩
      rw [M.bind_err (h3 sent out).1, M.bind_err (h3 sent out).2]
      exact ⟨rfl, rfl⟩
    | panic =>
      refine ⟨.panic, c1, o1, by simp, h1, h2, fun sent out => ?_⟩
      rw [M.bind_panic (h3 sent out).1, M.bind_panic (h3 sent out).2]
      exact ⟨rfl, rfl⟩
    | hang => exact absurd rfl hr
  mono _ h := h
  ident n ctx h := by
    cases hg : ctx.get n with
    | some v => exact ⟨.ok v, ctx, [], by simp, h, rfl, fun sent out => by simp [readVar, hg]⟩
    | none => exact ⟨.err (c!"ident:" ++ n ++ c!" not found"), ctx, [], by simp, h, rfl, fun sent out => by simp [readVar, hg]⟩
  lift {α r} hh hp ctx h := ⟨r, ctx, [], hh, h, rfl, fun sent out => by simp [M.lift]⟩

theorem local_panic : AllowsPanic (F := F) (fun {_} n x y => Local n x y) :=
  fun α ctx h => ⟨.panic, ctx, [], by simp, h, rfl, fun sent out => by simp [M.lift]⟩

theorem local_write (n : Str) (v : Value F) : Local 0 (writeVar n v) (writeVar n v) :=
  fun ctx h => ⟨.ok (), ctx.set n v, [], by simp, h, rfl, fun sent out => by simp [writeVar, M.modify]⟩

theorem local_out (t : Str) : Local (F := F) 0 (M.modify fun s => { s with out := s.out ++ t }) (M.modify fun s => { s with out := s.out ++ t }) :=
  fun ctx h => ⟨.ok (), ctx, t, by simp, h, rfl, fun sent out => by simp [M.modify]⟩

theorem callAt_noRequests (net : Net) (n : Nat) (name : Str) (vs : List (Value F)) (s : St F) (h : s.ctx.requests = []) :
    callAt net n name vs s = callNative name vs s := by
  have : s.ctx.request name = none := by simp [Context.request, h, amGet]
  cases n <;> simp [callAt, this]

theorem local_call (net net' : Net) (n n' : Nat) (name : Str) (vs : List (Value F)) : Local 1 (callAt net n name vs) (callAt net' n' name vs) := by
  intro ctx h
  obtain ⟨r, c, o, h1, h2, h3, h4⟩ := callNative_closed (F := F) local_closed local_out name vs ctx h
  refine ⟨r, c, o, h1, h2, h3, fun sent out => ?_⟩
  rw [callAt_noRequests _ _ _ _ _ h, callAt_noRequests _ _ _ _ _ h]
  exact h4 sent out

theorem local_orElse {n : Nat} {x y : M F (Value F)} (d : Value F) (hx : Local n x y) : Local n (x.orElse d) (y.orElse d) := by
  intro ctx h
  obtain ⟨r, c, o, h1, h2, h3, h4⟩ := hx ctx h
  cases r with
  | ok a => exact ⟨.ok a, c, o, h1, h2, h3, fun sent out => by simp [M.orElse, h4 sent out]⟩
  | err e => exact ⟨.ok d, c, o, by simp, h2, h3, fun sent out => by simp [M.orElse, h4 sent out]⟩
  | panic => exact ⟨.panic, c, o, by simp, h2, h3, fun sent out => by simp [M.orElse, h4 sent out]⟩
  | hang => exact absurd rfl h1

theorem evalExpr_local (net net' : Net) (n n' : Nat) (e : Expr F) : Local (calls e) (evalExpr (callAt net n) e) (evalExpr (callAt net' n') e) :=
  evalExpr_closed local_closed (local_call net net' n n') e (fun n _ v => local_write n v) (fun _ _ => Or.inl local_panic)

theorem evalAsserts_local (net net' : Net) (n n' : Nat) (l : List (Expr F)) :
    Local (callsList l) (evalAsserts (callAt net n) l) (evalAsserts (callAt net' n') l) :=
  evalAsserts_closed local_closed (local_call net net' n n') local_orElse l (fun n _ v => local_write n v) (fun _ _ => Or.inl local_panic)

theorem orElse_not_err (x : M F (Value F)) (d : Value F) (s : St F) (e : Str) : ((x.orElse d) s).1 ≠ .err e := by
  unfold M.orElse
  match x s with
  | (.ok a, s') => simp
  | (.err e, s') => simp
  | (.panic, s') => simp
  | (.hang, s') => simp

theorem M.bind_not_err {α β : Type} {x : M F α} {f : α → M F β} {e : Str} (hx : ∀ s, (x s).1 ≠ .err e) (hf : ∀ a s, (f a s).1 ≠ .err e) :
    ∀ s, ((x >>= f) s).1 ≠ .err e := by
  intro s
  match hs : x s with
  | (.ok a, s') => rw [M.bind_ok hs]; exact hf a s'
  | (.err e', s') => rw [M.bind_err hs]; have := hx s; rw [hs] at this; exact fun h => this (by simpa using h)
  | (.panic, s') => rw [M.bind_panic hs]; simp
  | (.hang, s') => rw [M.bind_hang hs]; simp

theorem evalAsserts_not_err (call : Call F) (e : Str) : ∀ (l : List (Expr F)) (s : St F), (evalAsserts call l s).1 ≠ .err e := by
  intro l
  induction l with
  | nil => intro s; simp [evalAsserts, M.pure]
  | cons x l ih =>
    cases x with
    | binary t a b =>
      simp only [evalAsserts]
      refine M.bind_not_err (fun s => orElse_not_err _ _ s e) (fun a => M.bind_not_err (fun s => orElse_not_err _ _ s e) (fun b =>
        M.bind_not_err ih (fun as s => ?_)))
      cases compareValues t.kind a b <;> (intro h; cases h)
    | _ => simp only [evalAsserts]; exact ih

/-! ## The call of a request -/

theorem readHeaders_not_panic (n : Nat) : ∀ r : Incoming, readHeaders n r ≠ .panic := by
  induction n with
  | zero => intro r; simp [readHeaders]
  | succ n ih =>
    intro r
    simp only [readHeaders]
    refine Res.bind_ne_panic ?_ ?_
    · unfold readLine
      split
      · dsimp only; split <;> simp
      · split
        · simp
        · split <;> simp
    · intro ⟨l, r'⟩
      dsimp only
      split
      · simp [pure]
      · refine Res.bind_ne_panic (ih r') ?_
        intro ⟨hs, r''⟩
        dsimp only
        split <;> simp [pure]

theorem responseRead_not_panic (r : Incoming) : Response.read r ≠ .panic := by
  unfold Response.read
  refine Res.bind_ne_panic ?_ ?_
  · unfold readLine
    split
    · dsimp only; split <;> simp
    · split
      · simp
      · split <;> simp
  · intro ⟨l, r'⟩
    refine Res.bind_ne_panic (readHeaders_not_panic _ _) ?_
    intro ⟨hs, r''⟩
    refine Res.bind_ne_panic ?_ ?_
    · unfold readRest
      split
      · simp
      · split <;> simp
    · intro b; simp [pure]

theorem Res.bind_ne_err {α β : Type} {x : Res α} {f : α → Res β} {e : Str} (hx : x ≠ .err e) (hf : ∀ a, f a ≠ .err e) : (x >>= f) ≠ .err e := by
  cases x with
  | ok a => exact hf a
  | err e' => intro h; exact hx (by cases h; rfl)
  | hang => intro h; cases h
  | panic => intro h; cases h

theorem durSub_not_err (a b : Nat) (e : Str) : durSub a b ≠ .err e := by
  unfold durSub; split <;> simp

theorem connected_not_err (c : Clocks) (e : Str) : Time.connected c ≠ .err e :=
  Res.bind_ne_err (durSub_not_err _ _ _) (fun _ h => by cases h)

theorem completed_not_err (t : Time) (c : Clocks) (e : Str) : Time.completed t c ≠ .err e :=
  Res.bind_ne_err (durSub_not_err _ _ _) (fun _ => Res.bind_ne_err (durSub_not_err _ _ _) (fun _ => Res.bind_ne_err (durSub_not_err _ _ _)
    (fun _ => Res.bind_ne_err (durSub_not_err _ _ _) (fun _ => Res.bind_ne_err (durSub_not_err _ _ _) (fun _ h => by cases h)))))

theorem send_not_err (net : Net) (sent : List Str) (m e : Str) : send net sent m ≠ .err e := by
  unfold send exchange
  intro h
  split at h
  · cases h
  · rename_i e' c _
    cases ht : Time.connected c with
    | ok t => rw [ht] at h; cases h
    | err e => exact absurd ht (connected_not_err _ _)
    | panic => rw [ht] at h; cases h
    | hang => rw [ht] at h; cases h
  · rename_i inc c _
    cases ht : Time.connected c with
    | ok t =>
      rw [ht, Res.ok_bind] at h
      cases hr : Response.read inc with
      | ok rs =>
        rw [hr] at h
        dsimp only at h
        cases hc : t.completed c with
        | ok t => rw [hc] at h; cases h
        | err e => exact absurd hc (completed_not_err _ _ _)
        | panic => rw [hc] at h; cases h
        | hang => rw [hc] at h; cases h
      | err e => rw [hr] at h; cases h
      | panic => rw [hr] at h; cases h
      | hang => rw [hr] at h; cases h
    | err e => exact absurd ht (connected_not_err _ _)
    | panic => rw [ht] at h; cases h
    | hang => rw [ht] at h; cases h

theorem toMap_not_err (r : Response) (e : Str) : r.toMap (F := F) ≠ .err e := by
  unfold Response.toMap
  split
  · split <;> simp
  · simp
  · simp
  · simp

/-- What calling a request does: either it completes — one message sent, one record added, the variables of the caller untouched — or it
panics or hangs after sending the message, leaving variables and records as they were. -/
theorem callRequest_cases (net : Net) (n : Nat) (name message : Str) (asserts : List (Expr F)) (s : St F) :
    (∃ rq rs t e map as ctx' o,
      send net s.sent (render s.ctx message) = .ok (rq, rs, t, e) ∧ rs.toMap = .ok map ∧
      (∀ sent out, evalAsserts (callAt net n) asserts ⟨Context.ofMap map, sent, out⟩ = (.ok as, ⟨ctx', sent, out ++ o⟩)) ∧
      callRequest net (callAt net n) name message asserts s =
        (.ok (.map ctx'.inner), ⟨s.ctx.push ⟨name, t, rq, rs, as, e⟩, s.sent ++ [render s.ctx message], s.out ++ o⟩)) ∨
    (∃ o, callRequest net (callAt net n) name message asserts s = (.hang, ⟨s.ctx, s.sent ++ [render s.ctx message], s.out ++ o⟩) ∧
      (send net s.sent (render s.ctx message) = .hang ∨
        ∃ rq rs t e, send net s.sent (render s.ctx message) = .ok (rq, rs, t, e) ∧ rs.toMap (F := F) = .hang)) ∨
    (∃ o, callRequest net (callAt net n) name message asserts s = (.panic, ⟨s.ctx, s.sent ++ [render s.ctx message], s.out ++ o⟩) ∧
      (send net s.sent (render s.ctx message) = .panic ∨
        (∃ rq rs t e, send net s.sent (render s.ctx message) = .ok (rq, rs, t, e) ∧ rs.toMap (F := F) = .panic) ∨
        ∃ map sent out, (evalAsserts (callAt net n) asserts ⟨Context.ofMap map, sent, out⟩).1 = .panic)) := by
  unfold callRequest
  rw [M.bind_ok (m := M.get) (s' := s) (a := s) rfl]
  dsimp only
  rw [M.bind_ok (M.modify_run _ _)]
  cases hs : send net s.sent (render s.ctx message) with
  | err e => exact absurd hs (send_not_err _ _ _ _)
  | panic =>
    refine Or.inr (Or.inr ⟨[], ?_, Or.inl rfl⟩)
    rw [M.bind_panic (M.lift_run _ _), List.append_nil]
  | hang =>
    refine Or.inr (Or.inl ⟨[], ?_, Or.inl rfl⟩)
    rw [M.bind_hang (M.lift_run _ _), List.append_nil]
  | ok p =>
    obtain ⟨rq, rs, t, e⟩ := p
    rw [M.bind_ok (M.lift_run _ _)]
    dsimp only
    cases hm : rs.toMap (F := F) with
    | err e => exact absurd hm (toMap_not_err _ _)
    | panic =>
      refine Or.inr (Or.inr ⟨[], ?_, Or.inr (Or.inl ⟨rq, rs, t, e, rfl, hm⟩)⟩)
      rw [M.bind_panic (M.lift_run _ _), List.append_nil]
    | hang =>
      refine Or.inr (Or.inl ⟨[], ?_, Or.inr ⟨rq, rs, t, e, rfl, hm⟩⟩)
      rw [M.bind_hang (M.lift_run _ _), List.append_nil]
    | ok map =>
      rw [M.bind_ok (M.lift_run _ _)]
      obtain ⟨r, ctx', o, h1, _, _, h4⟩ := evalAsserts_local net net n n asserts (Context.ofMap map) rfl
      have h5 := (h4 (s.sent ++ [render s.ctx message]) s.out).1
      cases r with
      | hang => exact absurd rfl h1
      | err e' =>
        have := evalAsserts_not_err (callAt net n) e' asserts ⟨Context.ofMap map, s.sent ++ [render s.ctx message], s.out⟩
        rw [h5] at this
        exact absurd rfl this
      | panic =>
        refine Or.inr (Or.inr ⟨o, ?_, Or.inr (Or.inr ⟨map, _, _, congrArg Prod.fst h5⟩)⟩)
        rw [M.bind_panic (s' := ⟨s.ctx, s.sent ++ [render s.ctx message], s.out ++ o⟩)]
        simp only [inLocal, h5]
      | ok as =>
        refine Or.inl ⟨rq, rs, t, e, map, as, ctx', o, rfl, hm, fun sent out => (h4 sent out).1, ?_⟩
        rw [M.bind_ok (s' := ⟨s.ctx, s.sent ++ [render s.ctx message], s.out ++ o⟩) (a := (as, ctx'.inner))]
        · rfl
        · simp only [inLocal, h5]

end Am
