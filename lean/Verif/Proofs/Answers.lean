import Verif.Spec.Answers
import Verif.Proofs.TwoRuns
import Verif.Proofs.Judging
import Verif.Props.Flow
/-! # Two runs with other answers side by side (C125) -/
set_option linter.unusedSimpArgs false
set_option linter.unusedSectionVars false
namespace Am
open Spec
variable {F : Type} [Rt F]

/-! ## Asserts that do not print -/

/-- In a context without requests nothing is printed. -/
def Unprinted {α : Type} (_ : Nat) (m _ : M F α) : Prop :=
  ∀ s : St F, s.ctx.requests = [] → (m s).2.out = s.out ∧ (m s).2.ctx.requests = []

theorem unprinted_closed : Closed (F := F) (fun {_} n x y => Unprinted n x y) where
  pure a s h := ⟨rfl, h⟩
  bind {α β m k x y f f'} hx hf s h := by
    obtain ⟨h1, h2⟩ := hx s h
    show (M.bind x f s).2.out = s.out ∧ (M.bind x f s).2.ctx.requests = []
    unfold M.bind
    rcases hm : x s with ⟨r, s1⟩
    rw [hm] at h1 h2
    cases r with
    | ok a =>
      obtain ⟨h3, h4⟩ := hf a s1 h2
      exact ⟨h3.trans h1, h4⟩
    | err e => exact ⟨h1, h2⟩
    | panic => exact ⟨h1, h2⟩
    | hang => exact ⟨h1, h2⟩
  mono _ h := h
  ident n s h := by
    unfold readVar
    split <;> exact ⟨rfl, h⟩
  lift _ _ s h := ⟨rfl, h⟩

theorem unprinted_orElse {n : Nat} {x y : M F (Value F)} (d : Value F) (h : Unprinted n x y) : Unprinted n (x.orElse d) (y.orElse d) := by
  intro s hs
  have h1 := h s hs
  unfold M.orElse
  rcases hx : x s with ⟨r, s1⟩
  rw [hx] at h1
  cases r <;> exact h1

theorem unprinted_mute (net : Net) (f : Str) (vs : List (Value F)) : Unprinted 1 (mute (callAt net 0) f vs) (mute (callAt net 0) f vs) := by
  intro s hs
  have h := (stays_mute False net f vs s hs).1
  rw [h]
  exact ⟨rfl, hs⟩

theorem evalAsserts_names (call call' : Call F) : ∀ (l : List (Expr F)), (∀ f ∈ calledList l, call f = call' f) → evalAsserts call l = evalAsserts call' l
  | [], _ => rfl
  | e :: rest, h => by
    simp only [calledList, List.mem_append] at h
    have ih := evalAsserts_names call call' rest fun f hf => h f (.inr hf)
    cases e with
    | binary t l r =>
      simp only [called, List.mem_append] at h
      rw [evalAsserts, evalAsserts, ih, evalExpr_names call call' l fun f hf => h f (.inl (.inl hf)), evalExpr_names call call' r fun f hf => h f (.inl (.inr hf))]
    | _ => exact ih

theorem evalAsserts_unprinted (net : Net) {asserts : List (Expr F)} (h : ∀ g ∈ calledList asserts, g ≠ c!"print" ∧ g ≠ c!"println") (s : St F)
    (hs : s.ctx.requests = []) : (evalAsserts (callAt net 0) asserts s).2.out = s.out := by
  rw [evalAsserts_names (callAt net 0) (mute (callAt net 0)) asserts ?_]
  · exact (evalAsserts_closed unprinted_closed (unprinted_mute net) unprinted_orElse asserts (fun n _ v s hs => ⟨rfl, hs⟩)
      (fun _ _ => .inl fun _ s hs => ⟨rfl, hs⟩) s hs).1
  · intro f hf
    funext vs
    unfold mute
    rw [if_neg]
    rintro (k | k)
    · exact (h f hf).1 k
    · exact (h f hf).2 k

theorem callRequest_unprinted (net : Net) (name message : Str) {asserts : List (Expr F)}
    (h : ∀ g ∈ calledList asserts, g ≠ c!"print" ∧ g ≠ c!"println") (s : St F) :
    (callRequest net (callAt net 0) name message asserts s).2.out = s.out := by
  unfold callRequest
  rw [M.bind_ok (m := M.get) (s' := s) (a := s) rfl]
  dsimp only
  rw [M.bind_ok (M.modify_run _ _)]
  cases hs : send net s.sent (render s.ctx message) with
  | err e => rw [M.bind_err (M.lift_run _ _)]
  | panic => rw [M.bind_panic (M.lift_run _ _)]
  | hang => rw [M.bind_hang (M.lift_run _ _)]
  | ok p =>
    obtain ⟨rq, rs, t, e⟩ := p
    rw [M.bind_ok (M.lift_run _ _)]
    dsimp only
    cases hm : rs.toMap (F := F) with
    | err e => rw [M.bind_err (M.lift_run _ _)]
    | panic => rw [M.bind_panic (M.lift_run _ _)]
    | hang => rw [M.bind_hang (M.lift_run _ _)]
    | ok map =>
      rw [M.bind_ok (M.lift_run _ _)]
      have key := evalAsserts_unprinted net h ⟨Context.ofMap map, s.sent ++ [render s.ctx message], s.out⟩ rfl
      cases he : evalAsserts (callAt net 0) asserts ⟨Context.ofMap map, s.sent ++ [render s.ctx message], s.out⟩ with | mk r s' =>
      rw [he] at key
      cases r with
      | err e => rw [M.bind_err (by simp only [inLocal, he]; rfl)]; exact key
      | panic => rw [M.bind_panic (by simp only [inLocal, he]; rfl)]; exact key
      | hang => rw [M.bind_hang (by simp only [inLocal, he]; rfl)]; exact key
      | ok as => rw [M.bind_ok (a := (as, s'.ctx.inner)) (by simp only [inLocal, he]; rfl)]; exact key

theorem Res.bind_eq_ok {α β : Type} {x : Res α} {f : α → Res β} {b : β} (h : (x >>= f) = .ok b) : ∃ a, x = .ok a ∧ f a = .ok b := by
  cases x with
  | ok a => exact ⟨a, rfl, h⟩
  | err e => cases h
  | panic => cases h
  | hang => cases h

theorem send_request {net : Net} {sent : List Str} {m : Str} {rq rs t e} (h : send net sent m = .ok (rq, rs, t, e)) :
    rq = (Request.ofStr net.multipart m).1 := by
  unfold send exchange at h
  split at h
  · cases h; rfl
  · obtain ⟨t, _, h⟩ := Res.bind_eq_ok h
    cases h; rfl
  · obtain ⟨t, _, h⟩ := Res.bind_eq_ok h
    split at h
    · obtain ⟨t, _, h⟩ := Res.bind_eq_ok h
      cases h; rfl
    · cases h; rfl
    · cases h
    · cases h

/-! ## The two runs -/

variable {table : List (Str × (Str × List (Expr F)))} {Γ : Str → Trust}

theorem Spec.Asked.behind {s t : St F} (h : Asked table Γ s t) : Behind s t := ⟨h.sent ▸ List.prefix_refl _, h.out ▸ List.prefix_refl _⟩

theorem Spec.Asked.behind' {s t : St F} (h : Asked table Γ s t) : Behind t s := ⟨h.sent ▸ List.prefix_refl _, h.out ▸ List.prefix_refl _⟩

/-- The outcomes of two runs: two values, the same error, or one has crashed or hangs and has done the beginning of what the other has done. -/
def Leveled (table : List (Str × (Str × List (Expr F)))) (Γ : Str → Trust) {α : Type} (R : α → α → Prop) (x y : Res α × St F) : Prop :=
  (∃ a b, x.1 = .ok a ∧ y.1 = .ok b ∧ R a b ∧ Asked table Γ x.2 y.2) ∨ (∃ e, x.1 = .err e ∧ y.1 = .err e ∧ Asked table Γ x.2 y.2) ∨
    (Stopped x.1 ∧ Behind x.2 y.2) ∨ (Stopped y.1 ∧ Behind y.2 x.2)

/-- Two evaluations that lead from such states to such outcomes. -/
structure Abreast (table : List (Str × (Str × List (Expr F)))) (Γ : Str → Trust) {α : Type} (R : α → α → Prop) (m m' : M F α) : Prop where
  left : Grows m
  right : Grows m'
  step : ∀ s t, Asked table Γ s t → Leveled table Γ R (m s) (m' t)

variable {α β : Type} {R : α → α → Prop} {Q : β → β → Prop}

theorem Abreast.pure {a b : α} (h : R a b) : Abreast table Γ R (M.pure a : M F α) (M.pure b) :=
  ⟨grows_pure _, grows_pure _, fun _ _ hs => .inl ⟨a, b, rfl, rfl, h, hs⟩⟩

theorem Abreast.lift (r : Res α) (h : ∀ a, R a a) : Abreast table Γ R (M.lift r : M F α) (M.lift r) := by
  refine ⟨grows_lift _, grows_lift _, fun s t hs => ?_⟩
  cases r with
  | ok a => exact .inl ⟨a, a, rfl, rfl, h a, hs⟩
  | err e => exact .inr (.inl ⟨e, rfl, rfl, hs⟩)
  | panic => exact .inr (.inr (.inl ⟨.inl rfl, hs.behind⟩))
  | hang => exact .inr (.inr (.inl ⟨.inr rfl, hs.behind⟩))

theorem Abreast.weaken {R' : α → α → Prop} {m m' : M F α} (h : Abreast table Γ R m m') (hr : ∀ a b, R a b → R' a b) : Abreast table Γ R' m m' := by
  refine ⟨h.left, h.right, fun s t hs => ?_⟩
  rcases h.step s t hs with ⟨a, b, h1, h2, h3, h4⟩ | h1
  · exact .inl ⟨a, b, h1, h2, hr a b h3, h4⟩
  · exact .inr h1

theorem stopped_bind {m : M F α} {f : α → M F β} {s : St F} (h : Stopped (m s).1) : Stopped (M.bind m f s).1 ∧ (M.bind m f s).2 = (m s).2 := by
  unfold M.bind
  rcases hm : m s with ⟨r, s1⟩
  rw [hm] at h
  rcases h with h | h <;> (dsimp only at h; subst h)
  · exact ⟨.inl rfl, rfl⟩
  · exact ⟨.inr rfl, rfl⟩

theorem behind_bind {m : M F α} {f : α → M F β} (hg : ∀ a, Grows (f a)) (s : St F) : Behind (m s).2 (M.bind m f s).2 := by
  unfold M.bind
  rcases hm : m s with ⟨r, s1⟩
  cases r with
  | ok a => exact hg a s1
  | err e => exact Behind.refl _
  | panic => exact Behind.refl _
  | hang => exact Behind.refl _

theorem Abreast.bind {m m' : M F α} {f f' : α → M F β} (h : Abreast table Γ R m m') (hf : ∀ a b, R a b → Abreast table Γ Q (f a) (f' b))
    (hg : ∀ a, Grows (f a)) (hg' : ∀ a, Grows (f' a)) : Abreast table Γ Q (M.bind m f) (M.bind m' f') := by
  refine ⟨grows_bind h.left hg, grows_bind h.right hg', fun s t hs => ?_⟩
  rcases h.step s t hs with ⟨a, b, h1, h2, h3, h4⟩ | ⟨e, h1, h2, h3⟩ | ⟨h1, h2⟩ | ⟨h1, h2⟩
  · have := (hf a b h3).step _ _ h4
    unfold M.bind
    rcases hm : m s with ⟨r, s1⟩
    rcases hm' : m' t with ⟨r', t1⟩
    rw [hm] at h1 this
    rw [hm'] at h2 this
    dsimp only at h1 h2
    subst h1 h2
    exact this
  · unfold M.bind
    rcases hm : m s with ⟨r, s1⟩
    rcases hm' : m' t with ⟨r', t1⟩
    rw [hm] at h1 h3
    rw [hm'] at h2 h3
    dsimp only at h1 h2
    subst h1 h2
    exact .inr (.inl ⟨e, rfl, rfl, h3⟩)
  · obtain ⟨k1, k2⟩ := stopped_bind (f := f) h1
    exact .inr (.inr (.inl ⟨k1, k2 ▸ h2.trans (behind_bind hg' t)⟩))
  · obtain ⟨k1, k2⟩ := stopped_bind (f := f') h1
    exact .inr (.inr (.inr ⟨k1, k2 ▸ h2.trans (behind_bind hg s)⟩))

theorem Abreast.ident (n : Str) : Abreast table Γ (Trusted (Γ n)) (evalExpr (F := F) call (.ident n)) (evalExpr call' (.ident n)) := by
  have hg : ∀ call : Call F, Grows (evalExpr (F := F) call (.ident n)) := by
    intro call s
    simp only [evalExpr]
    split <;> exact Behind.refl s
  refine ⟨hg _, hg _, fun s t hs => ?_⟩
  simp only [evalExpr]
  rcases hs.ctx.variables n with ⟨h1, h2⟩ | ⟨v, w, h1, h2, h3⟩
  · rw [h1, h2]; exact .inr (.inl ⟨_, rfl, rfl, hs⟩)
  · rw [h1, h2]; exact .inl ⟨v, w, rfl, rfl, h3, hs⟩

theorem Abreast.write {n : Str} {v w : Value F} (h : Trusted (Γ n) v w) :
    Abreast table Γ (fun _ _ => True) (M.modify fun s => { s with ctx := s.ctx.set n v }) (M.modify fun s => { s with ctx := s.ctx.set n w }) := by
  refine ⟨grows_modify fun s => Behind.refl s, grows_modify fun s => Behind.refl s, fun s t hs => .inl ⟨(), (), rfl, rfl, trivial, ?_⟩⟩
  refine ⟨⟨hs.ctx.left, hs.ctx.right, fun x => ?_, hs.ctx.records⟩, hs.sent, hs.out⟩
  show ((s.ctx.set n v).get x = none ∧ (t.ctx.set n w).get x = none) ∨ _
  by_cases hx : n = x
  · subst hx
    exact .inr ⟨v, w, by simp [M.modify, Context.get, Context.set, amGet_insert], by simp [M.modify, Context.get, Context.set, amGet_insert], h⟩
  · simp only [Context.get, Context.set, amGet_insert, if_neg hx, M.modify]
    exact hs.ctx.variables x

theorem Abreast.print (o : Str) : Abreast table Γ (fun _ _ => True) (M.modify (F := F) fun s => { s with out := s.out ++ o }) (M.modify fun s => { s with out := s.out ++ o }) :=
  ⟨grows_modify fun s => ⟨List.prefix_refl _, List.prefix_append _ _⟩, grows_modify fun s => ⟨List.prefix_refl _, List.prefix_append _ _⟩,
    fun s t hs => .inl ⟨(), (), rfl, rfl, trivial, ⟨hs.ctx, hs.sent, congrArg (· ++ o) hs.out⟩⟩⟩

theorem Abreast.native (f : Str) (vs : List (Value F)) : Abreast table Γ Eq (callNative f vs) (callNative f vs) := by
  unfold callNative
  have hg : ∀ o : Str, Grows (M.bind (M.modify (F := F) fun s => { s with out := s.out ++ o }) fun _ => M.pure (Value.null : Value F)) := fun o =>
    grows_bind (grows_modify fun s => ⟨List.prefix_refl _, List.prefix_append _ _⟩) fun _ => grows_pure _
  split
  · have h := fun v : Value F => Abreast.bind (Abreast.print (table := table) (Γ := Γ) (v.display ++ c!"\n")) (f := fun _ => M.pure (Value.null : Value F)) (f' := fun _ => M.pure (Value.null : Value F))
      (Q := Eq) (fun _ _ _ => Abreast.pure rfl) (fun _ => grows_pure _) (fun _ => grows_pure _)
    have hg' := fun v : Value F => hg (v.display ++ c!"\n")
    simp only [← List.append_assoc] at h hg'
    exact Abreast.bind (Abreast.lift (R := Eq) _ fun _ => rfl) (fun a b hab => hab ▸ h a) hg' hg'
  · split
    · exact Abreast.bind (Abreast.lift (R := Eq) _ fun _ => rfl) (fun a b hab => hab ▸ Abreast.bind (Abreast.print a.display) (Q := Eq) (fun _ _ _ => Abreast.pure rfl)
        (fun _ => grows_pure _) (fun _ => grows_pure _)) (fun a => hg a.display) (fun a => hg a.display)
    · split
      · exact Abreast.lift _ fun _ => rfl
      · split
        · exact Abreast.lift _ fun _ => rfl
        · split <;> exact Abreast.lift _ fun _ => rfl

theorem request_level {net net' : Net} (hn : net.multipart = net'.multipart) {f message : Str} {asserts : List (Expr F)}
    (hh : ∀ ps x, Pieces message ps → Piece.hole x ∈ ps → Γ x = .same) (ha : ∀ g ∈ calledList asserts, g ≠ c!"print" ∧ g ≠ c!"println")
    {s t : St F} (hs : Asked table Γ s t) :
    Leveled table Γ (Trusted .map) (callRequest net (callAt net 0) f message asserts s) (callRequest net' (callAt net' 0) f message asserts t) := by
  have hren : render s.ctx message = render t.ctx message := by
    obtain ⟨ps, h1, h2, h3⟩ := c27_render s.ctx message
    obtain ⟨qs, g1, _, g3⟩ := c27_render t.ctx message
    rw [h2 qs g1] at g3
    rw [h3, g3]
    refine fillBy_same (fun x hx => ?_)
    rcases hs.ctx.variables x with ⟨k1, k2⟩ | ⟨v, w, k1, k2, k3⟩
    · simp only [Context.get] at k1 k2
      rw [k1, k2]
    · simp only [Context.get] at k1 k2
      rw [hh ps x h1 hx] at k3
      rw [k1, k2, show v = w from k3]
  have hu := callRequest_unprinted net f message ha s
  have hu' := callRequest_unprinted net' f message ha t
  have hnil : ∀ {a b : Str}, a ++ b = a → b = [] := fun h => List.append_right_eq_self.1 h
  have base : ∀ c c' : Context F, Behind ⟨c, s.sent ++ [render s.ctx message], s.out⟩ ⟨c', t.sent ++ [render t.ctx message], t.out⟩ := by
    intro c c'; rw [hs.sent, hs.out, hren]; exact ⟨List.prefix_refl _, List.prefix_refl _⟩
  have base' : ∀ c c' : Context F, Behind ⟨c', t.sent ++ [render t.ctx message], t.out⟩ ⟨c, s.sent ++ [render s.ctx message], s.out⟩ := by
    intro c c'; rw [hs.sent, hs.out, hren]; exact ⟨List.prefix_refl _, List.prefix_refl _⟩
  have shape : ∀ (net : Net) (s : St F), (callRequest net (callAt net 0) f message asserts s).2.out = s.out →
      (∃ rq rs tm e as inner, send net s.sent (render s.ctx message) = .ok (rq, rs, tm, e) ∧ callRequest net (callAt net 0) f message asserts s =
        (.ok (.map inner), ⟨s.ctx.push ⟨f, tm, rq, rs, as, e⟩, s.sent ++ [render s.ctx message], s.out⟩)) ∨
      (Stopped (callRequest net (callAt net 0) f message asserts s).1 ∧
        (callRequest net (callAt net 0) f message asserts s).2 = ⟨s.ctx, s.sent ++ [render s.ctx message], s.out⟩) := by
    intro net s hu
    rcases callRequest_cases net 0 f message asserts s with ⟨rq, rs, tm, e, map, as, ctx', o, h1, _, _, h4⟩ | ⟨o, h1, _⟩ | ⟨o, h1, _⟩
    · rw [h4] at hu
      rw [hnil hu, List.append_nil] at h4
      exact .inl ⟨rq, rs, tm, e, as, ctx'.inner, h1, h4⟩
    · rw [h1] at hu
      rw [hnil hu, List.append_nil] at h1
      rw [h1]; exact .inr ⟨.inr rfl, rfl⟩
    · rw [h1] at hu
      rw [hnil hu, List.append_nil] at h1
      rw [h1]; exact .inr ⟨.inl rfl, rfl⟩
  rcases shape net s hu with ⟨rq, rs, tm, e, as, inner, h1, h2⟩ | ⟨h1, h2⟩
  · rcases shape net' t hu' with ⟨rq', rs', tm', e', as', inner', h1', h2'⟩ | ⟨h1', h2'⟩
    · rw [h2, h2']
      refine .inl ⟨_, _, rfl, rfl, ⟨⟨_, rfl⟩, _, rfl⟩, ⟨⟨hs.ctx.left, hs.ctx.right, hs.ctx.variables, ?_⟩, ?_, hs.out⟩⟩
      · refine each_snoc hs.ctx.records ⟨rfl, ?_⟩
        show rq = rq'
        rw [send_request h1, send_request h1', hn, hren]
      · show s.sent ++ _ = t.sent ++ _
        rw [hs.sent, hren]
    · refine .inr (.inr (.inr ⟨h1', ?_⟩))
      rw [h2', h2]; exact base' _ _
  · rcases shape net' t hu' with ⟨rq', rs', tm', e', as', inner', h1', h2'⟩ | ⟨h1', h2'⟩
    · refine .inr (.inr (.inl ⟨h1, ?_⟩))
      rw [h2', h2]; exact base _ _
    · refine .inr (.inr (.inl ⟨h1, ?_⟩))
      rw [h2', h2]; exact base _ _

/-! ## Scripts -/

theorem comparison_ok {k : Kind} (h : isComparison k = true) : ∃ op : Value F → Value F → Bool, binaryOp k = some fun l r => .ok (.bool (op l r)) := by
  cases k <;> first | exact ⟨_, rfl⟩ | cases h

/-- Lists of the same values, or lists of which nothing is known. -/
def TrustedAll (τ : Trust) (l m : List (Value F)) : Prop := τ = .same → l = m

/-- Maps with the same entries, or maps of which nothing is known. -/
def TrustedPairs (τ : Trust) (l m : List (Str × Value F)) : Prop := τ = .same → l = m

section scripts
variable {net net' : Net} (hn : net.multipart = net'.multipart)
include hn

theorem callAt_native {f : Str} (hf : amGet f table = none) (vs : List (Value F)) : Abreast table Γ Eq (callAt net 1 f vs) (callAt net' 1 f vs) := by
  refine ⟨callAt_grows _ _ _ _, callAt_grows _ _ _ _, fun s t hs => ?_⟩
  rw [callAt_none net vs (show s.ctx.request f = none by rw [Context.request, hs.ctx.left, hf]),
    callAt_none net' vs (show t.ctx.request f = none by rw [Context.request, hs.ctx.right, hf])]
  exact (Abreast.native f vs).step s t hs

mutual
theorem carries_expr : ∀ {e : Expr F} {τ : Trust}, Carries table Γ e τ → Abreast table Γ (Trusted τ) (evalExpr (callAt net 1) e) (evalExpr (callAt net' 1) e)
  | _, _, .int i => by simp only [evalExpr]; exact Abreast.pure rfl
  | _, _, .float i => by simp only [evalExpr]; exact Abreast.pure rfl
  | _, _, .bool i => by simp only [evalExpr]; exact Abreast.pure rfl
  | _, _, .str i => by simp only [evalExpr]; exact Abreast.pure rfl
  | _, _, .ident n => Abreast.ident n
  | _, _, .arr items h => by
    rw [evalExpr, evalExpr]
    refine Abreast.bind (carries_list h) (fun a b hab => ?_) (fun _ => grows_pure _) (fun _ => grows_pure _)
    exact Abreast.pure (by rw [hab rfl]; rfl)
  | _, _, .arrAny items h => by
    rw [evalExpr, evalExpr]
    exact Abreast.bind (carries_list h) (fun a b hab => Abreast.pure trivial) (fun _ => grows_pure _) (fun _ => grows_pure _)
  | _, _, .map pairs h => by
    rw [evalExpr, evalExpr]
    refine Abreast.bind (carries_pairs h [] [] (fun _ => rfl)) (fun a b hab => ?_) (fun _ => grows_pure _) (fun _ => grows_pure _)
    exact Abreast.pure (by rw [hab rfl]; rfl)
  | _, _, .mapAny pairs h => by
    rw [evalExpr, evalExpr]
    exact Abreast.bind (carries_pairs h [] [] (fun _ => rfl)) (fun a b hab => Abreast.pure ⟨⟨_, rfl⟩, _, rfl⟩) (fun _ => grows_pure _) (fun _ => grows_pure _)
  | _, _, .index l i h h' => by
    rw [evalExpr, evalExpr]
    refine Abreast.bind (carries_expr h) (fun a b hab => Abreast.bind (carries_expr h') (fun c d hcd => ?_) (fun _ => grows_lift _) (fun _ => grows_lift _))
      (fun _ => grows_bind (carries_expr h').left fun _ => grows_lift _) (fun _ => grows_bind (carries_expr h').right fun _ => grows_lift _)
    rw [show a = b from hab, show c = d from hcd]
    exact Abreast.lift _ fun _ => rfl
  | _, _, .indexAny l i h h' => by
    rw [evalExpr, evalExpr]
    refine Abreast.bind (carries_expr h) (fun a b hab => Abreast.bind (carries_expr h') (fun c d hcd => ?_) (fun _ => grows_lift _) (fun _ => grows_lift _))
      (fun _ => grows_bind (carries_expr h').left fun _ => grows_lift _) (fun _ => grows_bind (carries_expr h').right fun _ => grows_lift _)
    obtain ⟨⟨m, rfl⟩, m', rfl⟩ := hab
    simp only [indexValue]
    exact Abreast.pure trivial
  | _, _, .field l n h => by
    rw [evalExpr, evalExpr]
    refine Abreast.bind (carries_expr h) (fun a b hab => ?_) (fun _ => grows_lift _) (fun _ => grows_lift _)
    rw [show a = b from hab]
    exact Abreast.lift _ fun _ => rfl
  | _, _, .fieldAny l n h => by
    rw [evalExpr, evalExpr]
    refine Abreast.bind (carries_expr h) (fun a b hab => ?_) (fun _ => grows_lift _) (fun _ => grows_lift _)
    obtain ⟨⟨m, rfl⟩, m', rfl⟩ := hab
    simp only [fieldValue]
    exact Abreast.pure trivial
  | _, _, .letE n v h => by
    rw [evalExpr, evalExpr]
    have hg : ∀ a : Value F, Grows (M.bind (M.modify (F := F) fun s => { s with ctx := s.ctx.set n a }) fun _ => M.pure a) := fun a =>
      grows_bind (grows_modify fun s => Behind.refl s) (fun _ => grows_pure _)
    exact Abreast.bind (carries_expr h) (fun a b hab => Abreast.bind (Abreast.write hab) (fun _ _ _ => Abreast.pure hab) (fun _ => grows_pure _) (fun _ => grows_pure _))
      hg hg
  | _, _, .unary t r h => by
    rw [evalExpr, evalExpr]
    refine Abreast.bind (carries_expr h) (fun a b hab => ?_) (fun _ => grows_lift _) (fun _ => grows_lift _)
    rw [show a = b from hab]
    exact Abreast.lift _ fun _ => rfl
  | _, _, .not t r ht h => by
    rw [evalExpr, evalExpr]
    refine Abreast.bind (carries_expr h) (fun a b hab => ?_) (fun _ => grows_lift _) (fun _ => grows_lift _)
    have ok : ∀ a : Value F, ∃ v, unaryValue t a = .ok v := by
      intro a
      unfold unaryValue
      rw [ht]
      split <;> first | exact ⟨_, rfl⟩ | contradiction | skip
    obtain ⟨v, hv⟩ := ok a
    obtain ⟨w, hw⟩ := ok b
    rw [hv, hw]
    exact Abreast.pure trivial
  | _, _, .binary t l r h h' => by
    rw [evalExpr, evalExpr]
    have k := carries_expr h
    have k' := carries_expr h'
    split
    · refine Abreast.bind k (fun a b hab => Abreast.bind k' (fun c d hcd => ?_) (fun _ => grows_lift _) (fun _ => grows_lift _))
        (fun _ => grows_bind k'.left fun _ => grows_lift _) (fun _ => grows_bind k'.right fun _ => grows_lift _)
      rw [show a = b from hab, show c = d from hcd]
      exact Abreast.lift _ fun _ => rfl
    · split
      · refine Abreast.bind k (fun a b hab => ?_) ?_ ?_
        · rw [show a = b from hab]
          split
          · exact k'
          · exact Abreast.pure rfl
        · intro a; split
          · exact k'.left
          · exact grows_pure _
        · intro a; split
          · exact k'.right
          · exact grows_pure _
      · split
        · refine Abreast.bind k (fun a b hab => ?_) ?_ ?_
          · rw [show a = b from hab]
            split
            · exact Abreast.pure rfl
            · exact k'
          · intro a; split
            · exact grows_pure _
            · exact k'.left
          · intro a; split
            · exact grows_pure _
            · exact k'.right
        · exact Abreast.lift _ fun _ => rfl
  | _, _, .compare t l r ht h h' => by
    rw [evalExpr, evalExpr]
    have k := carries_expr h
    have k' := carries_expr h'
    obtain ⟨op, hop⟩ := comparison_ok (F := F) ht
    rw [hop]
    exact Abreast.bind k (fun a b hab => Abreast.bind k' (fun c d hcd => Abreast.pure trivial) (fun _ => grows_lift _) (fun _ => grows_lift _))
        (fun _ => grows_bind k'.left fun _ => grows_lift _) (fun _ => grows_bind k'.right fun _ => grows_lift _)
  | _, _, .logic t l r ht h h' => by
    rw [evalExpr, evalExpr]
    have k := carries_expr h
    have k' := carries_expr h'
    have hop : binaryOp (F := F) t.kind = none := by rcases ht with ht | ht <;> rw [ht] <;> rfl
    rw [hop]
    dsimp only
    split
    · refine Abreast.bind k (fun a b hab => ?_) ?_ ?_
      · rw [show a = b from hab]
        split
        · exact k'
        · exact Abreast.pure trivial
      · intro a; split
        · exact k'.left
        · exact grows_pure _
      · intro a; split
        · exact k'.right
        · exact grows_pure _
    · split
      · refine Abreast.bind k (fun a b hab => ?_) ?_ ?_
        · rw [show a = b from hab]
          split
          · exact Abreast.pure trivial
          · exact k'
        · intro a; split
          · exact grows_pure _
          · exact k'.left
        · intro a; split
          · exact grows_pure _
          · exact k'.right
      · exact Abreast.lift _ fun _ => trivial
  | _, _, .paren e τ h => by
    rw [evalExpr, evalExpr]
    exact carries_expr h
  | _, _, .ifE c t e τ h h1 h2 => by
    rw [evalExpr, evalExpr]
    have k1 := carries_block h1 .null .null (fun _ => rfl)
    have k2 := carries_block h2 .null .null (fun _ => rfl)
    refine Abreast.bind (carries_expr h) (fun a b hab => ?_) ?_ ?_
    · rw [show a = b from hab]
      split
      · exact k2
      · exact k1
    · intro a; split
      · exact k2.left
      · exact k1.left
    · intro a; split
      · exact k2.right
      · exact k1.right
  | _, _, .native f args hf h => by
    rw [evalExpr, evalExpr]
    refine Abreast.bind (carries_list h) (fun a b hab => ?_) (fun _ => callAt_grows _ _ _ _) (fun _ => callAt_grows _ _ _ _)
    rw [hab rfl]
    exact callAt_native hn hf b
  | _, _, .request f message asserts args hf h hh ha => by
    rw [evalExpr, evalExpr]
    refine Abreast.bind (carries_list h) (fun a b _ => ⟨callAt_grows _ _ _ _, callAt_grows _ _ _ _, fun s t hs => ?_⟩) (fun _ => callAt_grows _ _ _ _) (fun _ => callAt_grows _ _ _ _)
    rw [callAt_some net a (show s.ctx.request f = some (message, asserts) by rw [Context.request, hs.ctx.left, hf]),
      callAt_some net' b (show t.ctx.request f = some (message, asserts) by rw [Context.request, hs.ctx.right, hf])]
    exact request_level hn hh ha hs
  | _, _, .forget e τ h => (carries_expr h).weaken fun _ _ _ => trivial
theorem carries_list : ∀ {l : List (Expr F)} {τ : Trust}, CarriesAll table Γ l τ → Abreast table Γ (TrustedAll τ) (evalList (callAt net 1) l) (evalList (callAt net' 1) l)
  | _, _, .nil τ => Abreast.pure fun _ => rfl
  | _, _, .cons e l τ h h' => by
    rw [evalList, evalList]
    have k := carries_expr h
    have k' := carries_list h'
    refine Abreast.bind k (fun a b hab => Abreast.bind k' (fun c d hcd => Abreast.pure fun ht => ?_) (fun _ => grows_pure _) (fun _ => grows_pure _))
      (fun _ => grows_bind k'.left fun _ => grows_pure _) (fun _ => grows_bind k'.right fun _ => grows_pure _)
    subst ht
    rw [show a = b from hab, hcd rfl]
theorem carries_pairs : ∀ {l : List (Expr F × Expr F)} {τ : Trust}, CarriesPairs table Γ l τ → ∀ acc acc' : List (Str × Value F), TrustedPairs τ acc acc' →
    Abreast table Γ (TrustedPairs τ) (evalPairs (callAt net 1) acc l) (evalPairs (callAt net' 1) acc' l)
  | _, _, .nil τ, acc, acc', hacc => Abreast.pure hacc
  | _, _, .cons k v l τ h h' h'', acc, acc', hacc => by
    rw [evalPairs, evalPairs]
    have k1 := carries_expr h
    have k2 := carries_expr h'
    have hg := fun a : List (Str × Value F) => evalPairs_grows (callAt_grows net 1) l a
    have hg' := fun a : List (Str × Value F) => evalPairs_grows (callAt_grows net' 1) l a
    refine Abreast.bind k1 (fun a b hab => Abreast.bind k2 (fun c d hcd => carries_pairs h'' _ _ fun ht => ?_) (fun _ => hg _) (fun _ => hg' _))
      (fun _ => grows_bind k2.left fun _ => hg _) (fun _ => grows_bind k2.right fun _ => hg' _)
    subst ht
    rw [show a = b from hab, show c = d from hcd, hacc rfl]
theorem carries_block : ∀ {l : List (Expr F)} {τ : Trust}, CarriesBlock table Γ l τ → ∀ acc acc' : Value F, (l = [] → acc = acc') →
    Abreast table Γ (Trusted τ) (evalBlock (callAt net 1) acc l) (evalBlock (callAt net' 1) acc' l)
  | _, _, .nil, acc, acc', hacc => Abreast.pure (hacc rfl)
  | _, _, .last e τ h, acc, acc', _ => by
    simp only [evalBlock]
    exact Abreast.bind (carries_expr h) (fun a b hab => Abreast.pure hab) (fun _ => grows_pure _) (fun _ => grows_pure _)
  | _, _, .cons e l τ h hl h', acc, acc', _ => by
    rw [evalBlock, evalBlock]
    exact Abreast.bind (carries_expr h) (fun a b hab => carries_block h' a b fun hc => absurd hc hl)
      (fun a => evalBlock_grows (callAt_grows net 1) l a) (fun a => evalBlock_grows (callAt_grows net' 1) l a)
  | _, _, .forget l τ h, acc, acc', hacc => (carries_block h acc acc' hacc).weaken fun _ _ _ => trivial
end

end scripts
end Am
