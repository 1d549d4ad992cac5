import Verif.Spec.Silent
import Verif.Proofs.TwoRunsEval
import Verif.Proofs.Eval
/-! # Evaluation with exchanges that never end -/
set_option linter.unusedSimpArgs false
set_option linter.unusedSectionVars false
namespace Am
open Spec
variable {F : Type} [Rt F]

/-- The outcome `x` when every exchange ends and `y` when some do not. -/
def WaitRes (quiet : List Str → Str → Bool) {α : Type} (x y : Res α × St F) : Prop :=
  (y = x ∧ ¬ Unanswered quiet x.2.sent) ∨
  (y.1 = .hang ∧ Behind y.2 x.2 ∧ ∃ before m, y.2.sent = before ++ [m] ∧ quiet before m = true ∧ ¬ Unanswered quiet before)

/-- The same computation when every exchange ends and when some do not. -/
def Waits (quiet : List Str → Str → Bool) {α : Type} (_ : Nat) (m m' : M F α) : Prop :=
  Grows m ∧ ∀ s, ¬ Unanswered quiet s.sent → WaitRes quiet (m s) (m' s)

section
variable {quiet : List Str → Str → Bool}

theorem waits_same {α : Type} {m : M F α} (n : Nat) (hg : Grows m) (h : ∀ s, (m s).2.sent = s.sent) : Waits quiet n m m :=
  ⟨hg, fun s hs => .inl ⟨rfl, by rw [h]; exact hs⟩⟩

theorem waits_bind {α β : Type} {m n : Nat} {x y : M F α} {f g : α → M F β} (h : Waits quiet m x y) (h' : ∀ a, Waits quiet n (f a) (g a)) :
    Waits quiet (m + n) (x >>= f) (y >>= g) := by
  refine ⟨grows_bind h.1 (fun a => (h' a).1), fun s hs => ?_⟩
  have h1 := h.2 s hs
  show WaitRes quiet (M.bind x f s) (M.bind y g s)
  unfold M.bind
  rcases hx : x s with ⟨r, t⟩
  rcases hy : y s with ⟨r', t'⟩
  rw [hx, hy] at h1
  rcases h1 with ⟨h1, h2⟩ | ⟨h1, h2, h3⟩
  · cases h1
    cases r with
    | ok a => exact (h' a).2 t h2
    | err e => exact .inl ⟨rfl, h2⟩
    | panic => exact .inl ⟨rfl, h2⟩
    | hang => exact .inl ⟨rfl, h2⟩
  · cases h1
    cases r with
    | ok a => exact .inr ⟨rfl, h2.trans ((h' a).1 t), h3⟩
    | err e => exact .inr ⟨rfl, h2, h3⟩
    | panic => exact .inr ⟨rfl, h2, h3⟩
    | hang => exact .inr ⟨rfl, h2, h3⟩

theorem waits_orElse {α : Type} {n : Nat} {x y : M F α} (d : α) (h : Waits quiet n x y) : Waits quiet n (x.orElse d) (y.orElse d) := by
  refine ⟨grows_orElse h.1, fun s hs => ?_⟩
  have h1 := h.2 s hs
  unfold M.orElse
  rcases hx : x s with ⟨r, t⟩
  rcases hy : y s with ⟨r', t'⟩
  rw [hx, hy] at h1
  rcases h1 with ⟨h1, h2⟩ | ⟨h1, h2, h3⟩
  · cases h1
    cases r <;> exact .inl ⟨rfl, h2⟩
  · cases h1
    cases r <;> exact .inr ⟨rfl, h2, h3⟩

theorem waits_lift {α : Type} (n : Nat) (r : Res α) : Waits (F := F) quiet n (M.lift r) (M.lift r) := waits_same n (grows_lift _) fun _ => rfl

theorem waits_closed : Closed (F := F) (Waits quiet) where
  pure a := waits_same 0 (grows_pure a) fun _ => rfl
  bind := waits_bind
  mono := fun _ h => h
  ident n := by
    refine waits_same 0 (fun s => ?_) fun s => ?_
    · unfold readVar; split <;> exact Behind.refl s
    · unfold readVar; split <;> rfl
  lift _ _ := waits_lift 0 _

theorem waits_write (n : Str) (v : Value F) : Waits quiet 0 (writeVar n v) (writeVar n v) :=
  waits_same 0 (grows_modify fun s => Behind.refl s) fun _ => rfl

theorem waits_panics : AllowsPanic (F := F) (Waits quiet) := by
  intro α
  exact waits_lift 0 _

theorem waits_native (name : Str) (args : List (Value F)) : Waits quiet 1 (callNative name args) (callNative name args) := by
  have say : ∀ text : Value F → Str, Waits (F := F) quiet 1
      (M.lift (nativeFormat args) >>= fun v => M.modify (fun s => { s with out := s.out ++ text v }) >>= fun _ => M.pure (Value.null : Value F))
      (M.lift (nativeFormat args) >>= fun v => M.modify (fun s => { s with out := s.out ++ text v }) >>= fun _ => M.pure (Value.null : Value F)) := fun text =>
    waits_bind (m := 0) (waits_lift 0 _) fun v => waits_bind (n := 0)
      (waits_same 1 (grows_modify fun s => ⟨List.prefix_refl _, List.prefix_append _ _⟩) fun _ => rfl) fun _ => waits_closed.pure _
  unfold callNative
  by_cases h1 : name = c!"println"
  · rw [if_pos h1]
    simp only [List.append_assoc]
    exact say fun v => v.display ++ c!"\n"
  · rw [if_neg h1]
    by_cases h2 : name = c!"print"
    · rw [if_pos h2]
      exact say fun v => v.display
    · rw [if_neg h2]
      repeat (first | exact waits_lift 1 _ | split)

theorem waits_inLocal {α : Type} {n : Nat} (map : List (Str × Value F)) {m m' : M F α} (h : Waits quiet n m m') :
    Waits quiet n (inLocal map m) (inLocal map m') := by
  refine ⟨fun s => ?_, fun s hs => ?_⟩
  · have h := h.1 { s with ctx := Context.ofMap map }
    unfold inLocal
    cases hm : m { s with ctx := Context.ofMap map } with
    | mk r t =>
      rw [hm] at h
      cases r <;> exact h
  · have h1 := h.2 { s with ctx := Context.ofMap map } hs
    unfold inLocal
    rcases hx : m { s with ctx := Context.ofMap map } with ⟨r, t⟩
    rcases hy : m' { s with ctx := Context.ofMap map } with ⟨r', t'⟩
    rw [hx, hy] at h1
    rcases h1 with ⟨h1, h2⟩ | ⟨h1, h2, h3⟩
    · cases h1
      cases r <;> exact .inl ⟨rfl, h2⟩
    · cases h1
      cases r <;> exact .inr ⟨rfl, h2, h3⟩

theorem waits_asserts {call call' : Call F} (hc : ∀ f vs, Waits quiet 1 (call f vs) (call' f vs)) (asserts : List (Expr F)) :
    Waits quiet 0 (evalAsserts call asserts) (evalAsserts call' asserts) :=
  evalAsserts_closed waits_closed hc (fun d h => waits_orElse d h) asserts (fun n _ v => waits_write n v) (fun _ _ => .inl waits_panics)

theorem unanswered_snoc {sent : List Str} {m : Str} (h : ¬ Unanswered quiet sent) (hq : quiet sent m = false) : ¬ Unanswered quiet (sent ++ [m]) := by
  rintro ⟨before, m', after, he, hm⟩
  rcases List.eq_nil_or_concat after with rfl | ⟨after', x, rfl⟩
  · obtain ⟨rfl, h2⟩ := List.append_inj' (s₁ := sent) (t₁ := [m]) he rfl
    cases h2
    rw [hq] at hm
    cases hm
  · rw [List.concat_eq_append, show before ++ m' :: (after' ++ [x]) = (before ++ m' :: after') ++ [x] by simp] at he
    obtain ⟨rfl, -⟩ := List.append_inj' he rfl
    exact h ⟨before, m', after', rfl, hm⟩

theorem waits_request (net : Net) {call call' : Call F} (hc : ∀ f vs, Waits quiet 1 (call f vs) (call' f vs)) (name msg : Str)
    (asserts : List (Expr F)) : Waits quiet 1 (callRequest net call name msg asserts) (callRequestQuiet quiet net call' name msg asserts) := by
  refine ⟨callRequest_grows (fun f vs => (hc f vs).1) net name msg asserts, fun s hs => ?_⟩
  have hg := callRequest_grows (fun f vs => (hc f vs).1) net name msg asserts s
  have tail : ∀ p : Request × Response × Time × Str, Waits (F := F) quiet 0
      (M.lift (p.2.1.toMap (F := F)) >>= fun map => inLocal map (evalAsserts call asserts) >>= fun q =>
        M.modify (fun s => { s with ctx := s.ctx.push ⟨name, p.2.2.1, p.1, p.2.1, q.1, p.2.2.2⟩ }) >>= fun _ => M.pure (Value.map q.2))
      (M.lift (p.2.1.toMap (F := F)) >>= fun map => inLocal map (evalAsserts call' asserts) >>= fun q =>
        M.modify (fun s => { s with ctx := s.ctx.push ⟨name, p.2.2.1, p.1, p.2.1, q.1, p.2.2.2⟩ }) >>= fun _ => M.pure (Value.map q.2)) := by
    intro p
    refine waits_bind (m := 0) (n := 0) (waits_lift 0 _) fun map => ?_
    refine waits_bind (m := 0) (n := 0) (waits_inLocal map (waits_asserts hc asserts)) fun q => ?_
    refine waits_bind (m := 0) (n := 0) (waits_same 0 (grows_modify fun s => Behind.refl s) fun _ => rfl) fun _ => ?_
    exact waits_closed.pure _
  have hd : callRequest net call name msg asserts s =
      (M.lift (send net s.sent (render s.ctx msg)) >>= fun p => M.lift (p.2.1.toMap (F := F)) >>= fun map => inLocal map (evalAsserts call asserts) >>= fun q =>
        M.modify (fun s => { s with ctx := s.ctx.push ⟨name, p.2.2.1, p.1, p.2.1, q.1, p.2.2.2⟩ }) >>= fun _ => M.pure (Value.map q.2))
        { s with sent := s.sent ++ [render s.ctx msg] } := rfl
  have hd' : callRequestQuiet quiet net call' name msg asserts s =
      (M.lift (if quiet s.sent (render s.ctx msg) then .hang else send net s.sent (render s.ctx msg)) >>= fun p =>
        M.lift (p.2.1.toMap (F := F)) >>= fun map => inLocal map (evalAsserts call' asserts) >>= fun q =>
        M.modify (fun s => { s with ctx := s.ctx.push ⟨name, p.2.2.1, p.1, p.2.1, q.1, p.2.2.2⟩ }) >>= fun _ => M.pure (Value.map q.2))
        { s with sent := s.sent ++ [render s.ctx msg] } := rfl
  cases hq : quiet s.sent (render s.ctx msg) with
  | true =>
    rw [hd', hq, if_pos rfl]
    refine .inr ⟨rfl, ?_, s.sent, _, rfl, hq, hs⟩
    have h1 := (waits_bind (m := 0) (n := 0) (waits_lift (F := F) (quiet := quiet) 0 (send net s.sent (render s.ctx msg))) tail).1
      { s with sent := s.sent ++ [render s.ctx msg] }
    rw [hd]
    exact h1
  | false =>
    rw [hd, hd', hq, if_neg (by decide)]
    exact (waits_bind (m := 0) (n := 0) (waits_lift 0 _) tail).2 _ (unanswered_snoc hs hq)

theorem waits_callAt (net : Net) : ∀ (n : Nat) (name : Str) (args : List (Value F)), Waits quiet 1 (callAt net n name args) (callAtQuiet quiet net n name args)
  | 0, name, args => by
    refine ⟨callAt_grows net 0 name args, fun s hs => ?_⟩
    unfold callAt callAtQuiet
    cases s.ctx.request name with
    | some p => exact .inl ⟨rfl, hs⟩
    | none => exact (waits_native name args).2 s hs
  | n + 1, name, args => by
    have hc := waits_callAt net n
    refine ⟨callAt_grows net (n + 1) name args, fun s hs => ?_⟩
    unfold callAt callAtQuiet
    cases s.ctx.request name with
    | some p => exact (waits_request net hc name _ _).2 s hs
    | none => exact (waits_native name args).2 s hs

theorem waits_runBlock (net : Net) (es : List (Expr F)) : Waits quiet 0 (runBlock net es) (runBlockQuiet quiet net es) :=
  evalBlock_closed waits_closed (waits_callAt net 1) es .null (fun n _ v => waits_write n v) (fun _ _ => .inl waits_panics)

end
end Am
