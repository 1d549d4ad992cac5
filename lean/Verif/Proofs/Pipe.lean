import Verif.Spec.Pipe
import Verif.Proofs.TwoRunsEval
import Verif.Proofs.Eval
/-! # Evaluation with a standard output that can fail -/
set_option linter.unusedSimpArgs false
set_option linter.unusedSectionVars false
namespace Am
open Spec
variable {F : Type} [Rt F]

/-- The outcome `x` when every write works and `y` when some fail. With `sure`, `broken` decides which case it is. -/
def CutRes (broken : Str → Bool) (sure : Prop) {α : Type} (x y : Res α × St F) : Prop :=
  (y = x ∧ (sure → broken x.2.out = false)) ∨ (y.1 = .panic ∧ Behind y.2 x.2 ∧ (sure → broken x.2.out = true))

/-- The same computation with a working output and with one that can fail. -/
def Cut (broken : Str → Bool) (sure : Prop) {α : Type} (_ : Nat) (m m' : M F α) : Prop :=
  Grows m ∧ ∀ s, (sure → broken s.out = false) → CutRes broken sure (m s) (m' s)

section
variable {broken : Str → Bool} {sure : Prop} (hb : sure → StaysBroken broken)

theorem cut_same {α : Type} {m : M F α} (n : Nat) (hg : Grows m) (h : ∀ s, (m s).2.out = s.out) : Cut broken sure n m m :=
  ⟨hg, fun s hs => .inl ⟨rfl, fun hh => by rw [h]; exact hs hh⟩⟩

include hb in
theorem behind_broken {s t : St F} (h : Behind s t) (hs : sure → broken s.out = true) : sure → broken t.out = true := by
  intro hh
  obtain ⟨_, u, hu⟩ := h
  rw [← hu]
  exact hb hh _ _ (hs hh)

include hb in
theorem cut_bind {α β : Type} {m n : Nat} {x y : M F α} {f g : α → M F β} (h : Cut broken sure m x y) (h' : ∀ a, Cut broken sure n (f a) (g a)) :
    Cut broken sure (m + n) (x >>= f) (y >>= g) := by
  refine ⟨grows_bind h.1 (fun a => (h' a).1), fun s hs => ?_⟩
  have h1 := h.2 s hs
  show CutRes broken sure (M.bind x f s) (M.bind y g s)
  unfold M.bind
  rcases hx : x s with ⟨r, t⟩
  rcases hy : y s with ⟨r', t'⟩
  rw [hx, hy] at h1
  rcases h1 with ⟨h1, h2⟩ | ⟨h1, h2, h3⟩
  · cases h1
    cases r with
    | ok a => exact (h' a).2 t h2
    | err e => exact .inl ⟨rfl, h2⟩
    | panic => exact .inl ⟨rfl, h2⟩
    | hang => exact .inl ⟨rfl, h2⟩
  · cases h1
    cases r with
    | ok a =>
      have h4 := (h' a).1 t
      exact .inr ⟨rfl, h2.trans h4, behind_broken hb h4 h3⟩
    | err e => exact .inr ⟨rfl, h2, h3⟩
    | panic => exact .inr ⟨rfl, h2, h3⟩
    | hang => exact .inr ⟨rfl, h2, h3⟩

theorem cut_orElse {α : Type} {n : Nat} {x y : M F α} (d : α) (h : Cut broken sure n x y) : Cut broken sure n (x.orElse d) (y.orElse d) := by
  refine ⟨grows_orElse h.1, fun s hs => ?_⟩
  have h1 := h.2 s hs
  unfold M.orElse
  rcases hx : x s with ⟨r, t⟩
  rcases hy : y s with ⟨r', t'⟩
  rw [hx, hy] at h1
  rcases h1 with ⟨h1, h2⟩ | ⟨h1, h2, h3⟩
  · cases h1
    cases r <;> exact .inl ⟨rfl, h2⟩
  · cases h1
    cases r <;> exact .inr ⟨rfl, h2, h3⟩

theorem cut_lift {α : Type} (n : Nat) (r : Res α) : Cut (F := F) broken sure n (M.lift r) (M.lift r) := cut_same n (grows_lift _) fun _ => rfl

include hb in
theorem cut_closed : Closed (F := F) (Cut broken sure) where
  pure a := cut_same 0 (grows_pure a) fun _ => rfl
  bind := cut_bind hb
  mono := fun _ h => h
  ident n := by
    refine cut_same 0 (fun s => ?_) fun s => ?_
    · unfold readVar; split <;> exact Behind.refl s
    · unfold readVar; split <;> rfl
  lift _ _ := cut_lift 0 _

theorem cut_write (n : Str) (v : Value F) : Cut broken sure 0 (writeVar n v) (writeVar n v) :=
  cut_same 0 (grows_modify fun s => Behind.refl s) fun _ => rfl

theorem cut_panics : AllowsPanic (F := F) (Cut broken sure) := by
  intro α
  exact cut_lift 0 _

include hb in
theorem cut_say (n : Nat) (text : Str) : Cut (F := F) broken sure n (M.modify fun s => { s with out := s.out ++ text }) (sayOn broken text) := by
  have hg : Grows (F := F) (M.modify fun s => { s with out := s.out ++ text }) := grows_modify fun s => ⟨List.prefix_refl _, List.prefix_append _ _⟩
  refine ⟨hg, fun s hs => ?_⟩
  unfold sayOn
  cases h : broken (s.out ++ text) with
  | true => exact .inr ⟨rfl, hg s, fun _ => h⟩
  | false => exact .inl ⟨rfl, fun _ => h⟩

include hb in
theorem cut_native (name : Str) (args : List (Value F)) : Cut broken sure 1 (callNative name args) (callNativeOn broken name args) := by
  unfold callNativeOn callNative
  by_cases h1 : name = c!"println"
  · rw [if_pos h1, if_pos h1]
    simp only [List.append_assoc]
    exact cut_bind hb (m := 0) (cut_lift 0 _) fun v => cut_bind hb (n := 0) (cut_say hb 1 _) fun _ => (cut_closed hb).pure _
  · rw [if_neg h1, if_neg h1]
    by_cases h2 : name = c!"print"
    · rw [if_pos h2, if_pos h2]
      exact cut_bind hb (m := 0) (cut_lift 0 _) fun v => cut_bind hb (n := 0) (cut_say hb 1 _) fun _ => (cut_closed hb).pure _
    · rw [if_neg h2, if_neg h2]
      repeat (first | exact cut_lift 1 _ | split)

include hb in
theorem cut_inLocal {α : Type} {n : Nat} (map : List (Str × Value F)) {m m' : M F α} (h : Cut broken sure n m m') :
    Cut broken sure n (inLocal map m) (inLocal map m') := by
  refine ⟨fun s => ?_, fun s hs => ?_⟩
  · have h := h.1 { s with ctx := Context.ofMap map }
    unfold inLocal
    cases hm : m { s with ctx := Context.ofMap map } with
    | mk r t =>
      rw [hm] at h
      cases r <;> exact h
  · have h1 := h.2 { s with ctx := Context.ofMap map } hs
    unfold inLocal
    rcases hx : m { s with ctx := Context.ofMap map } with ⟨r, t⟩
    rcases hy : m' { s with ctx := Context.ofMap map } with ⟨r', t'⟩
    rw [hx, hy] at h1
    rcases h1 with ⟨h1, h2⟩ | ⟨h1, h2, h3⟩
    · cases h1
      cases r <;> exact .inl ⟨rfl, h2⟩
    · cases h1
      cases r <;> exact .inr ⟨rfl, h2, h3⟩

include hb in
theorem cut_asserts {call call' : Call F} (hc : ∀ f vs, Cut broken sure 1 (call f vs) (call' f vs)) (asserts : List (Expr F)) :
    Cut broken sure 0 (evalAsserts call asserts) (evalAsserts call' asserts) :=
  evalAsserts_closed (cut_closed hb) hc (fun d h => cut_orElse d h) asserts (fun n _ v => cut_write n v) (fun _ _ => .inl cut_panics)

include hb in
theorem cut_request (net : Net) {call call' : Call F} (hc : ∀ f vs, Cut broken sure 1 (call f vs) (call' f vs)) (name msg : Str)
    (asserts : List (Expr F)) : Cut broken sure 1 (callRequest net call name msg asserts) (callRequest net call' name msg asserts) := by
  refine ⟨callRequest_grows (fun f vs => (hc f vs).1) net name msg asserts, fun s hs => ?_⟩
  have key : ∀ (text : Str) (before : List Str), Cut (F := F) broken sure 0
      (M.modify (fun s => { s with sent := s.sent ++ [text] }) >>= fun _ => M.lift (send net before text) >>= fun p =>
        M.lift (p.2.1.toMap (F := F)) >>= fun map => inLocal map (evalAsserts call asserts) >>= fun q =>
        M.modify (fun s => { s with ctx := s.ctx.push ⟨name, p.2.2.1, p.1, p.2.1, q.1, p.2.2.2⟩ }) >>= fun _ => M.pure (Value.map q.2))
      (M.modify (fun s => { s with sent := s.sent ++ [text] }) >>= fun _ => M.lift (send net before text) >>= fun p =>
        M.lift (p.2.1.toMap (F := F)) >>= fun map => inLocal map (evalAsserts call' asserts) >>= fun q =>
        M.modify (fun s => { s with ctx := s.ctx.push ⟨name, p.2.2.1, p.1, p.2.1, q.1, p.2.2.2⟩ }) >>= fun _ => M.pure (Value.map q.2)) := by
    intro text before
    refine cut_bind hb (m := 0) (n := 0) (cut_same 0 (grows_modify fun s => ⟨List.prefix_append _ _, List.prefix_refl _⟩) fun _ => rfl) fun _ => ?_
    refine cut_bind hb (m := 0) (n := 0) (cut_lift 0 _) fun p => ?_
    refine cut_bind hb (m := 0) (n := 0) (cut_lift 0 _) fun map => ?_
    refine cut_bind hb (m := 0) (n := 0) (cut_inLocal hb map (cut_asserts hb hc asserts)) fun q => ?_
    refine cut_bind hb (m := 0) (n := 0) (cut_same 0 (grows_modify fun s => Behind.refl s) fun _ => rfl) fun _ => ?_
    exact (cut_closed hb).pure _
  exact (key (render s.ctx msg) s.sent).2 s hs

include hb in
theorem cut_callAt (net : Net) : ∀ (n : Nat) (name : Str) (args : List (Value F)), Cut broken sure 1 (callAt net n name args) (callAtOn broken net n name args)
  | 0, name, args => by
    refine ⟨callAt_grows net 0 name args, fun s hs => ?_⟩
    unfold callAt callAtOn
    cases s.ctx.request name with
    | some p => exact .inl ⟨rfl, hs⟩
    | none => exact (cut_native hb name args).2 s hs
  | n + 1, name, args => by
    have hc := cut_callAt net n
    refine ⟨callAt_grows net (n + 1) name args, fun s hs => ?_⟩
    unfold callAt callAtOn
    cases s.ctx.request name with
    | some p => exact (cut_request hb net hc name _ _).2 s hs
    | none => exact (cut_native hb name args).2 s hs

include hb in
theorem cut_runBlock (net : Net) (es : List (Expr F)) : Cut broken sure 0 (runBlock net es) (runBlockOn broken net es) :=
  evalBlock_closed (cut_closed hb) (cut_callAt hb net 1) es .null (fun n _ v => cut_write n v) (fun _ _ => .inl cut_panics)

theorem sayLine_modify (text : Str) : (sayLine text : M F Unit) = M.modify fun s => { s with out := s.out ++ (text ++ c!"\n") } := by
  unfold sayLine
  simp only [List.append_assoc]

include hb in
theorem cut_evalText (net : Net) (text : Str) : Cut (F := F) broken sure 0 (evalText net text) (evalTextOn broken net text) := by
  unfold evalText evalTextOn
  cases (parse text : Res (Source F)) with
  | ok src =>
    refine cut_bind hb (m := 0) (n := 0) (cut_same 0 (grows_modify fun s => Behind.refl s) fun _ => rfl) fun _ => ?_
    have hblock := cut_runBlock (F := F) hb net src.exprs
    have hline := fun t => cut_say (F := F) hb 0 (t ++ c!"\n")
    refine ⟨fun s => ?_, fun s hs => ?_⟩
    · have h1 := hblock.1 s
      dsimp only
      rcases hx : runBlock net src.exprs s with ⟨r, t⟩
      rw [hx] at h1
      cases r with
      | ok v => dsimp only; rw [sayLine_modify]; exact h1.trans ((hline _).1 t)
      | err e => dsimp only; rw [sayLine_modify]; exact h1.trans ((hline _).1 t)
      | panic => exact h1
      | hang => exact h1
    · have h1 := hblock.2 s hs
      dsimp only
      rcases hx : runBlock net src.exprs s with ⟨r, t⟩
      rcases hy : runBlockOn broken net src.exprs s with ⟨r', t'⟩
      rw [hx, hy] at h1
      rcases h1 with ⟨h1, h2⟩ | ⟨h1, h2, h3⟩
      · cases h1
        cases r with
        | ok v => dsimp only; rw [sayLine_modify]; exact (hline _).2 t h2
        | err e => dsimp only; rw [sayLine_modify]; exact (hline _).2 t h2
        | panic => exact .inl ⟨rfl, h2⟩
        | hang => exact .inl ⟨rfl, h2⟩
      · cases h1
        cases r with
        | ok v =>
          dsimp only
          rw [sayLine_modify]
          have h4 := (hline v.display).1 t
          exact .inr ⟨rfl, h2.trans h4, behind_broken hb h4 h3⟩
        | err e =>
          dsimp only
          rw [sayLine_modify]
          have h4 := (hline e).1 t
          exact .inr ⟨rfl, h2.trans h4, behind_broken hb h4 h3⟩
        | panic => exact .inr ⟨rfl, h2, h3⟩
        | hang => exact .inr ⟨rfl, h2, h3⟩
  | err e => dsimp only; rw [sayLine_modify]; exact cut_say hb 0 _
  | panic => exact cut_lift 0 _
  | hang => exact cut_lift 0 _

include hb in
theorem cut_repl (net : Net) : ∀ input : List Input, Cut (F := F) broken sure 0 (replLoop net input) (replLoopOn broken net input)
  | [] => cut_lift 0 _
  | .bad :: rest => cut_repl net rest
  | .line text :: rest => by
    have ih := cut_repl net rest
    unfold replLoop replLoopOn
    split
    · exact (cut_closed hb).pure _
    · split
      · exact ih
      · exact cut_bind hb (m := 0) (n := 0) (cut_evalText hb net text) fun _ => ih

end
end Am
