import Verif.Spec.Secrets
import Verif.Proofs.Answers
import Verif.Props.Asserting
/-! # Two runs with other secrets side by side (C132) -/
set_option linter.unusedSimpArgs false
set_option linter.unusedSectionVars false
namespace Am
open Spec
variable {F : Type} [Rt F]
variable {table : List (Str × (Str × List (Expr F)))} {A : Str → Prop} {Γ : Str → Trust}

theorem messagesOf_swap {f m m' : Str} (h : MessagesOf table f m m') : MessagesOf table f m' m := by
  obtain ⟨message, asserts, ps, g, g', h1, h2, h3, h4⟩ := h
  exact ⟨message, asserts, ps, g', g, h1, h2, h4, h3⟩

theorem secretPair_swap {m m' : Str} (h : SecretPair table A m m') : SecretPair table A m' m := by
  rcases h with h | ⟨f, h1, h2⟩
  · exact .inl h.symm
  · exact .inr ⟨f, h1, messagesOf_swap h2⟩

theorem each_flip {α : Type} {R : α → α → Prop} (hr : ∀ a b, R a b → R b a) {l m : List α} (h : Each R l m) : Each R m l := by
  induction h with
  | nil => exact .nil
  | cons h _ ih => exact .cons (hr _ _ h) ih

theorem Spec.Kept.behind {s t : St F} (h : Kept table A Γ s t) : StillBehind table A s t :=
  ⟨⟨t.sent, List.prefix_refl _, h.sent⟩, h.out ▸ List.prefix_refl _⟩

theorem Spec.Kept.behind' {s t : St F} (h : Kept table A Γ s t) : StillBehind table A t s :=
  ⟨⟨s.sent, List.prefix_refl _, each_flip (fun _ _ => secretPair_swap) h.sent⟩, h.out ▸ List.prefix_refl _⟩

theorem Spec.StillBehind.trans {s t u : St F} (h : StillBehind table A s t) (h' : Behind t u) : StillBehind table A s u := by
  obtain ⟨⟨b, h1, h2⟩, h3⟩ := h
  exact ⟨⟨b, h1.trans h'.1, h2⟩, h3.trans h'.2⟩

/-- The outcomes of two runs: two values, the same error, or one has crashed or hangs and has done the beginning of what the other has done. -/
def Evened (table : List (Str × (Str × List (Expr F)))) (A : Str → Prop) (Γ : Str → Trust) {α : Type} (R : α → α → Prop) (x y : Res α × St F) : Prop :=
  (∃ a b, x.1 = .ok a ∧ y.1 = .ok b ∧ R a b ∧ Kept table A Γ x.2 y.2) ∨ (∃ e, x.1 = .err e ∧ y.1 = .err e ∧ Kept table A Γ x.2 y.2) ∨
    (Stopped x.1 ∧ StillBehind table A x.2 y.2) ∨ (Stopped y.1 ∧ StillBehind table A y.2 x.2)

/-- Two evaluations that lead from such states to such outcomes. -/
structure Guarded (table : List (Str × (Str × List (Expr F)))) (A : Str → Prop) (Γ : Str → Trust) {α : Type} (R : α → α → Prop) (m m' : M F α) : Prop where
  left : Grows m
  right : Grows m'
  step : ∀ s t, Kept table A Γ s t → Evened table A Γ R (m s) (m' t)

variable {α β : Type} {R : α → α → Prop} {Q : β → β → Prop}

theorem Guarded.pure {a b : α} (h : R a b) : Guarded table A Γ R (M.pure a : M F α) (M.pure b) :=
  ⟨grows_pure _, grows_pure _, fun _ _ hs => .inl ⟨a, b, rfl, rfl, h, hs⟩⟩

theorem Guarded.lift (r : Res α) (h : ∀ a, R a a) : Guarded table A Γ R (M.lift r : M F α) (M.lift r) := by
  refine ⟨grows_lift _, grows_lift _, fun s t hs => ?_⟩
  cases r with
  | ok a => exact .inl ⟨a, a, rfl, rfl, h a, hs⟩
  | err e => exact .inr (.inl ⟨e, rfl, rfl, hs⟩)
  | panic => exact .inr (.inr (.inl ⟨.inl rfl, hs.behind⟩))
  | hang => exact .inr (.inr (.inl ⟨.inr rfl, hs.behind⟩))

theorem Guarded.weaken {R' : α → α → Prop} {m m' : M F α} (h : Guarded table A Γ R m m') (hr : ∀ a b, R a b → R' a b) : Guarded table A Γ R' m m' := by
  refine ⟨h.left, h.right, fun s t hs => ?_⟩
  rcases h.step s t hs with ⟨a, b, h1, h2, h3, h4⟩ | h1
  · exact .inl ⟨a, b, h1, h2, hr a b h3, h4⟩
  · exact .inr h1

theorem Guarded.bind {m m' : M F α} {f f' : α → M F β} (h : Guarded table A Γ R m m') (hf : ∀ a b, R a b → Guarded table A Γ Q (f a) (f' b))
    (hg : ∀ a, Grows (f a)) (hg' : ∀ a, Grows (f' a)) : Guarded table A Γ Q (M.bind m f) (M.bind m' f') := by
  refine ⟨grows_bind h.left hg, grows_bind h.right hg', fun s t hs => ?_⟩
  rcases h.step s t hs with ⟨a, b, h1, h2, h3, h4⟩ | ⟨e, h1, h2, h3⟩ | ⟨h1, h2⟩ | ⟨h1, h2⟩
  · have := (hf a b h3).step _ _ h4
    unfold M.bind
    rcases hm : m s with ⟨r, s1⟩
    rcases hm' : m' t with ⟨r', t1⟩
    rw [hm] at h1 this
    rw [hm'] at h2 this
    dsimp only at h1 h2
    subst h1 h2
    exact this
  · unfold M.bind
    rcases hm : m s with ⟨r, s1⟩
    rcases hm' : m' t with ⟨r', t1⟩
    rw [hm] at h1 h3
    rw [hm'] at h2 h3
    dsimp only at h1 h2
    subst h1 h2
    exact .inr (.inl ⟨e, rfl, rfl, h3⟩)
  · obtain ⟨k1, k2⟩ := stopped_bind (f := f) h1
    exact .inr (.inr (.inl ⟨k1, k2 ▸ h2.trans (behind_bind hg' t)⟩))
  · obtain ⟨k1, k2⟩ := stopped_bind (f := f') h1
    exact .inr (.inr (.inr ⟨k1, k2 ▸ h2.trans (behind_bind hg s)⟩))

theorem Guarded.ident (n : Str) : Guarded table A Γ (Trusted (Γ n)) (evalExpr (F := F) call (.ident n)) (evalExpr call' (.ident n)) := by
  have hg : ∀ call : Call F, Grows (evalExpr (F := F) call (.ident n)) := by
    intro call s
    simp only [evalExpr]
    split <;> exact Behind.refl s
  refine ⟨hg _, hg _, fun s t hs => ?_⟩
  simp only [evalExpr]
  rcases hs.ctx.variables n with ⟨h1, h2⟩ | ⟨v, w, h1, h2, h3⟩
  · rw [h1, h2]; exact .inr (.inl ⟨_, rfl, rfl, hs⟩)
  · rw [h1, h2]; exact .inl ⟨v, w, rfl, rfl, h3, hs⟩

theorem Guarded.write {n : Str} {v w : Value F} (h : Trusted (Γ n) v w) :
    Guarded table A Γ (fun _ _ => True) (M.modify fun s => { s with ctx := s.ctx.set n v }) (M.modify fun s => { s with ctx := s.ctx.set n w }) := by
  refine ⟨grows_modify fun s => Behind.refl s, grows_modify fun s => Behind.refl s, fun s t hs => .inl ⟨(), (), rfl, rfl, trivial, ?_⟩⟩
  refine ⟨⟨hs.ctx.left, hs.ctx.right, fun x => ?_, hs.ctx.records⟩, hs.sent, hs.out⟩
  show ((s.ctx.set n v).get x = none ∧ (t.ctx.set n w).get x = none) ∨ _
  by_cases hx : n = x
  · subst hx
    exact .inr ⟨v, w, by simp [M.modify, Context.get, Context.set, amGet_insert], by simp [M.modify, Context.get, Context.set, amGet_insert], h⟩
  · simp only [Context.get, Context.set, amGet_insert, if_neg hx, M.modify]
    exact hs.ctx.variables x

theorem Guarded.print (o : Str) : Guarded table A Γ (fun _ _ => True) (M.modify (F := F) fun s => { s with out := s.out ++ o }) (M.modify fun s => { s with out := s.out ++ o }) :=
  ⟨grows_modify fun s => ⟨List.prefix_refl _, List.prefix_append _ _⟩, grows_modify fun s => ⟨List.prefix_refl _, List.prefix_append _ _⟩,
    fun s t hs => .inl ⟨(), (), rfl, rfl, trivial, ⟨hs.ctx, hs.sent, congrArg (· ++ o) hs.out⟩⟩⟩

theorem Guarded.native (f : Str) (vs : List (Value F)) : Guarded table A Γ Eq (callNative f vs) (callNative f vs) := by
  unfold callNative
  have hg : ∀ o : Str, Grows (M.bind (M.modify (F := F) fun s => { s with out := s.out ++ o }) fun _ => M.pure (Value.null : Value F)) := fun o =>
    grows_bind (grows_modify fun s => ⟨List.prefix_refl _, List.prefix_append _ _⟩) fun _ => grows_pure _
  split
  · have h := fun v : Value F => Guarded.bind (Guarded.print (table := table) (A := A) (Γ := Γ) (v.display ++ c!"\n")) (f := fun _ => M.pure (Value.null : Value F)) (f' := fun _ => M.pure (Value.null : Value F))
      (Q := Eq) (fun _ _ _ => Guarded.pure rfl) (fun _ => grows_pure _) (fun _ => grows_pure _)
    have hg' := fun v : Value F => hg (v.display ++ c!"\n")
    simp only [← List.append_assoc] at h hg'
    exact Guarded.bind (Guarded.lift (R := Eq) _ fun _ => rfl) (fun a b hab => hab ▸ h a) hg' hg'
  · split
    · exact Guarded.bind (Guarded.lift (R := Eq) _ fun _ => rfl) (fun a b hab => hab ▸ Guarded.bind (Guarded.print a.display) (Q := Eq) (fun _ _ _ => Guarded.pure rfl)
        (fun _ => grows_pure _) (fun _ => grows_pure _)) (fun a => hg a.display) (fun a => hg a.display)
    · split
      · exact Guarded.lift _ fun _ => rfl
      · split
        · exact Guarded.lift _ fun _ => rfl
        · split <;> exact Guarded.lift _ fun _ => rfl


theorem render_filled (c : Context F) (message : Str) : ∃ ps g, Pieces message ps ∧ render c message = fillBy g ps ∧ ∀ qs, Pieces message qs → qs = ps := by
  obtain ⟨ps, h1, h2, h3⟩ := c27_render c message
  exact ⟨ps, _, h1, h3, h2⟩

theorem renders_messagesOf {f message : Str} {asserts : List (Expr F)} (hf : amGet f table = some (message, asserts)) (c c' : Context F) :
    MessagesOf table f (render c message) (render c' message) := by
  obtain ⟨ps, g, h1, h2, _⟩ := render_filled c message
  obtain ⟨qs, g', h3, h4, h5⟩ := render_filled c' message
  cases h5 ps h1
  exact ⟨message, asserts, ps, g, g', hf, h1, h2, h4⟩

theorem meant_level {net net' : Net} {f message : Str} {asserts : List (Expr F)} (hf : amGet f table = some (message, asserts)) (hA : A f)
    (ha : ∀ g ∈ calledList asserts, g ≠ c!"print" ∧ g ≠ c!"println") {s t : St F} (hs : Kept table A Γ s t) :
    Evened table A Γ (Trusted .map) (callRequest net (callAt net 0) f message asserts s) (callRequest net' (callAt net' 0) f message asserts t) := by
  have hu := callRequest_unprinted net f message ha s
  have hu' := callRequest_unprinted net' f message ha t
  have hnil : ∀ {a b : Str}, a ++ b = a → b = [] := fun h => List.append_right_eq_self.1 h
  have hsent : Each (SecretPair table A) (s.sent ++ [render s.ctx message]) (t.sent ++ [render t.ctx message]) :=
    each_snoc hs.sent (.inr ⟨f, hA, renders_messagesOf hf s.ctx t.ctx⟩)
  have base : ∀ c c' : Context F, StillBehind table A ⟨c, s.sent ++ [render s.ctx message], s.out⟩ ⟨c', t.sent ++ [render t.ctx message], t.out⟩ := by
    intro c c'; exact ⟨⟨_, List.prefix_refl _, hsent⟩, hs.out ▸ List.prefix_refl _⟩
  have base' : ∀ c c' : Context F, StillBehind table A ⟨c', t.sent ++ [render t.ctx message], t.out⟩ ⟨c, s.sent ++ [render s.ctx message], s.out⟩ := by
    intro c c'; exact ⟨⟨_, List.prefix_refl _, each_flip (fun _ _ => secretPair_swap) hsent⟩, hs.out ▸ List.prefix_refl _⟩
  have shape : ∀ (net : Net) (s : St F), (callRequest net (callAt net 0) f message asserts s).2.out = s.out →
      (∃ rq rs tm e as inner, send net s.sent (render s.ctx message) = .ok (rq, rs, tm, e) ∧ callRequest net (callAt net 0) f message asserts s =
        (.ok (.map inner), ⟨s.ctx.push ⟨f, tm, rq, rs, as, e⟩, s.sent ++ [render s.ctx message], s.out⟩)) ∨
      (Stopped (callRequest net (callAt net 0) f message asserts s).1 ∧
        (callRequest net (callAt net 0) f message asserts s).2 = ⟨s.ctx, s.sent ++ [render s.ctx message], s.out⟩) := by
    intro net s hu
    rcases callRequest_cases net 0 f message asserts s with ⟨rq, rs, tm, e, map, as, ctx', o, h1, _, _, h4⟩ | ⟨o, h1, _⟩ | ⟨o, h1, _⟩
    · rw [h4] at hu
      rw [hnil hu, List.append_nil] at h4
      exact .inl ⟨rq, rs, tm, e, as, ctx'.inner, h1, h4⟩
    · rw [h1] at hu
      rw [hnil hu, List.append_nil] at h1
      rw [h1]; exact .inr ⟨.inr rfl, rfl⟩
    · rw [h1] at hu
      rw [hnil hu, List.append_nil] at h1
      rw [h1]; exact .inr ⟨.inl rfl, rfl⟩
  rcases shape net s hu with ⟨rq, rs, tm, e, as, inner, h1, h2⟩ | ⟨h1, h2⟩
  · rcases shape net' t hu' with ⟨rq', rs', tm', e', as', inner', h1', h2'⟩ | ⟨h1', h2'⟩
    · rw [h2, h2']
      refine .inl ⟨_, _, rfl, rfl, ⟨⟨_, rfl⟩, _, rfl⟩, ⟨⟨hs.ctx.left, hs.ctx.right, hs.ctx.variables, ?_⟩, hsent, hs.out⟩⟩
      exact each_snoc hs.ctx.records ⟨rfl, fun h => absurd hA h⟩
    · refine .inr (.inr (.inr ⟨h1', ?_⟩))
      rw [h2', h2]; exact base' _ _
  · rcases shape net' t hu' with ⟨rq', rs', tm', e', as', inner', h1', h2'⟩ | ⟨h1', h2'⟩
    · refine .inr (.inr (.inl ⟨h1, ?_⟩))
      rw [h2', h2]; exact base _ _
    · refine .inr (.inr (.inl ⟨h1, ?_⟩))
      rw [h2', h2]; exact base _ _

theorem other_level {net net' : Net} (hn : net.multipart = net'.multipart) (hu : Unhearing table A net net') {f message : Str} {asserts : List (Expr F)}
    (hf : amGet f table = some (message, asserts)) (hA : ¬A f) (hh : ∀ ps x, Pieces message ps → Piece.hole x ∈ ps → Γ x = .same)
    (a b : List (Value F)) {s t : St F} (hs : Kept table A Γ s t) :
    Evened table A Γ (Trusted .same) (callAt net 1 f a s) (callAt net' 1 f b t) := by
  have hren : render s.ctx message = render t.ctx message := by
    obtain ⟨ps, h1, h2, h3⟩ := c27_render s.ctx message
    obtain ⟨qs, g1, _, g3⟩ := c27_render t.ctx message
    rw [h2 qs g1] at g3
    rw [h3, g3]
    refine fillBy_same (fun x hx => ?_)
    rcases hs.ctx.variables x with ⟨k1, k2⟩ | ⟨v, w, k1, k2, k3⟩
    · simp only [Context.get] at k1 k2
      rw [k1, k2]
    · simp only [Context.get] at k1 k2
      rw [hh ps x h1 hx] at k3
      rw [k1, k2, show v = w from k3]
  have hsend : send net' t.sent (render t.ctx message) = send net s.sent (render s.ctx message) := by
    unfold send
    rw [hn, ← hren, hu s.sent t.sent _ f hs.sent hA (renders_messagesOf hf s.ctx s.ctx)]
  have hsent : Each (SecretPair table A) (s.sent ++ [render s.ctx message]) (t.sent ++ [render t.ctx message]) := each_snoc hs.sent (.inl hren)
  have hr : s.ctx.request f = some (message, asserts) := by rw [Context.request, hs.ctx.left, hf]
  have hr' : t.ctx.request f = some (message, asserts) := by rw [Context.request, hs.ctx.right, hf]
  have base : ∀ (c c' : Context F) (o : Str), StillBehind table A ⟨c, s.sent ++ [render s.ctx message], s.out ++ o⟩ ⟨c', t.sent ++ [render t.ctx message], t.out ++ o⟩ := by
    intro c c' o; exact ⟨⟨_, List.prefix_refl _, hsent⟩, hs.out ▸ List.prefix_refl _⟩
  rw [callAt_some net a hr, callAt_some net' b hr']
  cases hx : send net s.sent (render s.ctx message) with
  | err e => exact absurd hx (send_not_err _ _ _ _)
  | panic =>
    have e1 : callRequest net (callAt net 0) f message asserts s = (.panic, ⟨s.ctx, s.sent ++ [render s.ctx message], s.out⟩) := by
      unfold callRequest
      rw [M.bind_ok (m := M.get) (s' := s) (a := s) rfl]
      dsimp only
      rw [M.bind_ok (M.modify_run _ _), hx, M.bind_panic (M.lift_run _ _)]
    have e2 : callRequest net' (callAt net' 0) f message asserts t = (.panic, ⟨t.ctx, t.sent ++ [render t.ctx message], t.out⟩) := by
      unfold callRequest
      rw [M.bind_ok (m := M.get) (s' := t) (a := t) rfl]
      dsimp only
      rw [M.bind_ok (M.modify_run _ _), hsend, hx, M.bind_panic (M.lift_run _ _)]
    rw [e1, e2]
    have := base s.ctx t.ctx []
    simp only [List.append_nil] at this
    exact .inr (.inr (.inl ⟨.inl rfl, this⟩))
  | hang =>
    have e1 : callRequest net (callAt net 0) f message asserts s = (.hang, ⟨s.ctx, s.sent ++ [render s.ctx message], s.out⟩) := by
      unfold callRequest
      rw [M.bind_ok (m := M.get) (s' := s) (a := s) rfl]
      dsimp only
      rw [M.bind_ok (M.modify_run _ _), hx, M.bind_hang (M.lift_run _ _)]
    have e2 : callRequest net' (callAt net' 0) f message asserts t = (.hang, ⟨t.ctx, t.sent ++ [render t.ctx message], t.out⟩) := by
      unfold callRequest
      rw [M.bind_ok (m := M.get) (s' := t) (a := t) rfl]
      dsimp only
      rw [M.bind_ok (M.modify_run _ _), hsend, hx, M.bind_hang (M.lift_run _ _)]
    rw [e1, e2]
    have := base s.ctx t.ctx []
    simp only [List.append_nil] at this
    exact .inr (.inr (.inl ⟨.inr rfl, this⟩))
  | ok p =>
    obtain ⟨rq, rs, tm, e⟩ := p
    have hx' := hsend.trans hx
    obtain ⟨k1, o, k2, k3, k4⟩ := c21_only_response net net' f f message message asserts s t a b rq rq rs tm tm e e hr hr' hx hx'
    have c1 := callAt_some net a hr
    have c2 := callAt_some net' b hr'
    have hout : ∀ {x y z : Str}, x ++ y = x ++ z → y = z := fun h => List.append_cancel_left h
    rcases callRequest_cases net 0 f message asserts s with ⟨rq1, rs1, tm1, e1, map1, as1, ctx1, o1, g1, _, _, g4⟩ | ⟨o1, g4, _⟩ | ⟨o1, g4, _⟩ <;>
      rcases callRequest_cases net' 0 f message asserts t with ⟨rq2, rs2, tm2, e2, map2, as2, ctx2, o2, j1, _, _, j4⟩ | ⟨o2, j4, _⟩ | ⟨o2, j4, _⟩ <;>
      rw [g4] at c1 <;> rw [j4] at c2 <;> rw [c1] at k1 k2 k4 <;> rw [c2] at k1 k3 k4 <;> dsimp only at k1 k2 k3 k4 <;> first | (cases k1; done) | skip
    · rcases k4 with ⟨as, k4, k5⟩ | k4 | k4
      rotate_left
      · cases k4
      · cases k4
      obtain rfl := hout k2
      obtain rfl := hout k3
      rw [g4, j4]
      refine .inl ⟨_, _, rfl, rfl, Res.ok.inj k1, ⟨⟨hs.ctx.left, hs.ctx.right, hs.ctx.variables, ?_⟩, hsent, congrArg (· ++ _) hs.out⟩⟩
      show Each (KeptRecord A) (s.ctx.records ++ [_]) (t.ctx.records ++ [_])
      refine each_snoc hs.ctx.records ?_
      have i1 := List.append_cancel_left k4
      have i2 := List.append_cancel_left k5
      rw [List.cons.injEq] at i1 i2
      rw [i1.1, i2.1]
      exact ⟨rfl, fun _ => rfl⟩
    · obtain rfl := hout k2
      obtain rfl := hout k3
      rw [g4, j4]
      exact .inr (.inr (.inl ⟨.inr rfl, base _ _ _⟩))
    · obtain rfl := hout k2
      obtain rfl := hout k3
      rw [g4, j4]
      exact .inr (.inr (.inl ⟨.inl rfl, base _ _ _⟩))

/-! ## Scripts -/

section scripts
variable {net net' : Net} (hn : net.multipart = net'.multipart) (hu : Unhearing table A net net')
include hn hu

theorem callAt_native_kept {f : Str} (hf : amGet f table = none) (vs : List (Value F)) : Guarded table A Γ Eq (callAt net 1 f vs) (callAt net' 1 f vs) := by
  refine ⟨callAt_grows _ _ _ _, callAt_grows _ _ _ _, fun s t hs => ?_⟩
  rw [callAt_none net vs (show s.ctx.request f = none by rw [Context.request, hs.ctx.left, hf]),
    callAt_none net' vs (show t.ctx.request f = none by rw [Context.request, hs.ctx.right, hf])]
  exact (Guarded.native f vs).step s t hs

mutual
theorem guards_expr : ∀ {e : Expr F} {τ : Trust}, Guards table A Γ e τ → Guarded table A Γ (Trusted τ) (evalExpr (callAt net 1) e) (evalExpr (callAt net' 1) e)
  | _, _, .int i => by simp only [evalExpr]; exact Guarded.pure rfl
  | _, _, .float i => by simp only [evalExpr]; exact Guarded.pure rfl
  | _, _, .bool i => by simp only [evalExpr]; exact Guarded.pure rfl
  | _, _, .str i => by simp only [evalExpr]; exact Guarded.pure rfl
  | _, _, .ident n => Guarded.ident n
  | _, _, .arr items h => by
    rw [evalExpr, evalExpr]
    refine Guarded.bind (guards_list h) (fun a b hab => ?_) (fun _ => grows_pure _) (fun _ => grows_pure _)
    exact Guarded.pure (by rw [hab rfl]; rfl)
  | _, _, .arrAny items h => by
    rw [evalExpr, evalExpr]
    exact Guarded.bind (guards_list h) (fun a b hab => Guarded.pure trivial) (fun _ => grows_pure _) (fun _ => grows_pure _)
  | _, _, .map pairs h => by
    rw [evalExpr, evalExpr]
    refine Guarded.bind (guards_pairs h [] [] (fun _ => rfl)) (fun a b hab => ?_) (fun _ => grows_pure _) (fun _ => grows_pure _)
    exact Guarded.pure (by rw [hab rfl]; rfl)
  | _, _, .mapAny pairs h => by
    rw [evalExpr, evalExpr]
    exact Guarded.bind (guards_pairs h [] [] (fun _ => rfl)) (fun a b hab => Guarded.pure ⟨⟨_, rfl⟩, _, rfl⟩) (fun _ => grows_pure _) (fun _ => grows_pure _)
  | _, _, .index l i h h' => by
    rw [evalExpr, evalExpr]
    refine Guarded.bind (guards_expr h) (fun a b hab => Guarded.bind (guards_expr h') (fun c d hcd => ?_) (fun _ => grows_lift _) (fun _ => grows_lift _))
      (fun _ => grows_bind (guards_expr h').left fun _ => grows_lift _) (fun _ => grows_bind (guards_expr h').right fun _ => grows_lift _)
    rw [show a = b from hab, show c = d from hcd]
    exact Guarded.lift _ fun _ => rfl
  | _, _, .indexAny l i h h' => by
    rw [evalExpr, evalExpr]
    refine Guarded.bind (guards_expr h) (fun a b hab => Guarded.bind (guards_expr h') (fun c d hcd => ?_) (fun _ => grows_lift _) (fun _ => grows_lift _))
      (fun _ => grows_bind (guards_expr h').left fun _ => grows_lift _) (fun _ => grows_bind (guards_expr h').right fun _ => grows_lift _)
    obtain ⟨⟨m, rfl⟩, m', rfl⟩ := hab
    simp only [indexValue]
    exact Guarded.pure trivial
  | _, _, .field l n h => by
    rw [evalExpr, evalExpr]
    refine Guarded.bind (guards_expr h) (fun a b hab => ?_) (fun _ => grows_lift _) (fun _ => grows_lift _)
    rw [show a = b from hab]
    exact Guarded.lift _ fun _ => rfl
  | _, _, .fieldAny l n h => by
    rw [evalExpr, evalExpr]
    refine Guarded.bind (guards_expr h) (fun a b hab => ?_) (fun _ => grows_lift _) (fun _ => grows_lift _)
    obtain ⟨⟨m, rfl⟩, m', rfl⟩ := hab
    simp only [fieldValue]
    exact Guarded.pure trivial
  | _, _, .letE n v h => by
    rw [evalExpr, evalExpr]
    have hg : ∀ a : Value F, Grows (M.bind (M.modify (F := F) fun s => { s with ctx := s.ctx.set n a }) fun _ => M.pure a) := fun a =>
      grows_bind (grows_modify fun s => Behind.refl s) (fun _ => grows_pure _)
    exact Guarded.bind (guards_expr h) (fun a b hab => Guarded.bind (Guarded.write hab) (fun _ _ _ => Guarded.pure hab) (fun _ => grows_pure _) (fun _ => grows_pure _))
      hg hg
  | _, _, .unary t r h => by
    rw [evalExpr, evalExpr]
    refine Guarded.bind (guards_expr h) (fun a b hab => ?_) (fun _ => grows_lift _) (fun _ => grows_lift _)
    rw [show a = b from hab]
    exact Guarded.lift _ fun _ => rfl
  | _, _, .not t r ht h => by
    rw [evalExpr, evalExpr]
    refine Guarded.bind (guards_expr h) (fun a b hab => ?_) (fun _ => grows_lift _) (fun _ => grows_lift _)
    have ok : ∀ a : Value F, ∃ v, unaryValue t a = .ok v := by
      intro a
      unfold unaryValue
      rw [ht]
      split <;> first | exact ⟨_, rfl⟩ | contradiction | skip
    obtain ⟨v, hv⟩ := ok a
    obtain ⟨w, hw⟩ := ok b
    rw [hv, hw]
    exact Guarded.pure trivial
  | _, _, .binary t l r h h' => by
    rw [evalExpr, evalExpr]
    have k := guards_expr h
    have k' := guards_expr h'
    split
    · refine Guarded.bind k (fun a b hab => Guarded.bind k' (fun c d hcd => ?_) (fun _ => grows_lift _) (fun _ => grows_lift _))
        (fun _ => grows_bind k'.left fun _ => grows_lift _) (fun _ => grows_bind k'.right fun _ => grows_lift _)
      rw [show a = b from hab, show c = d from hcd]
      exact Guarded.lift _ fun _ => rfl
    · split
      · refine Guarded.bind k (fun a b hab => ?_) ?_ ?_
        · rw [show a = b from hab]
          split
          · exact k'
          · exact Guarded.pure rfl
        · intro a; split
          · exact k'.left
          · exact grows_pure _
        · intro a; split
          · exact k'.right
          · exact grows_pure _
      · split
        · refine Guarded.bind k (fun a b hab => ?_) ?_ ?_
          · rw [show a = b from hab]
            split
            · exact Guarded.pure rfl
            · exact k'
          · intro a; split
            · exact grows_pure _
            · exact k'.left
          · intro a; split
            · exact grows_pure _
            · exact k'.right
        · exact Guarded.lift _ fun _ => rfl
  | _, _, .compare t l r ht h h' => by
    rw [evalExpr, evalExpr]
    have k := guards_expr h
    have k' := guards_expr h'
    obtain ⟨op, hop⟩ := comparison_ok (F := F) ht
    rw [hop]
    exact Guarded.bind k (fun a b hab => Guarded.bind k' (fun c d hcd => Guarded.pure trivial) (fun _ => grows_lift _) (fun _ => grows_lift _))
        (fun _ => grows_bind k'.left fun _ => grows_lift _) (fun _ => grows_bind k'.right fun _ => grows_lift _)
  | _, _, .logic t l r ht h h' => by
    rw [evalExpr, evalExpr]
    have k := guards_expr h
    have k' := guards_expr h'
    have hop : binaryOp (F := F) t.kind = none := by rcases ht with ht | ht <;> rw [ht] <;> rfl
    rw [hop]
    dsimp only
    split
    · refine Guarded.bind k (fun a b hab => ?_) ?_ ?_
      · rw [show a = b from hab]
        split
        · exact k'
        · exact Guarded.pure trivial
      · intro a; split
        · exact k'.left
        · exact grows_pure _
      · intro a; split
        · exact k'.right
        · exact grows_pure _
    · split
      · refine Guarded.bind k (fun a b hab => ?_) ?_ ?_
        · rw [show a = b from hab]
          split
          · exact Guarded.pure trivial
          · exact k'
        · intro a; split
          · exact grows_pure _
          · exact k'.left
        · intro a; split
          · exact grows_pure _
          · exact k'.right
      · exact Guarded.lift _ fun _ => trivial
  | _, _, .paren e τ h => by
    rw [evalExpr, evalExpr]
    exact guards_expr h
  | _, _, .ifE c t e τ h h1 h2 => by
    rw [evalExpr, evalExpr]
    have k1 := guards_block h1 .null .null (fun _ => rfl)
    have k2 := guards_block h2 .null .null (fun _ => rfl)
    refine Guarded.bind (guards_expr h) (fun a b hab => ?_) ?_ ?_
    · rw [show a = b from hab]
      split
      · exact k2
      · exact k1
    · intro a; split
      · exact k2.left
      · exact k1.left
    · intro a; split
      · exact k2.right
      · exact k1.right
  | _, _, .native f args hf h => by
    rw [evalExpr, evalExpr]
    refine Guarded.bind (guards_list h) (fun a b hab => ?_) (fun _ => callAt_grows _ _ _ _) (fun _ => callAt_grows _ _ _ _)
    rw [hab rfl]
    exact callAt_native_kept hn hu hf b
  | _, _, .meant f message asserts args hf hA h ha => by
    rw [evalExpr, evalExpr]
    refine Guarded.bind (guards_list h) (fun a b _ => ⟨callAt_grows _ _ _ _, callAt_grows _ _ _ _, fun s t hs => ?_⟩) (fun _ => callAt_grows _ _ _ _) (fun _ => callAt_grows _ _ _ _)
    rw [callAt_some net a (show s.ctx.request f = some (message, asserts) by rw [Context.request, hs.ctx.left, hf]),
      callAt_some net' b (show t.ctx.request f = some (message, asserts) by rw [Context.request, hs.ctx.right, hf])]
    exact meant_level hf hA ha hs
  | _, _, .other f message asserts args hf hA h hh => by
    rw [evalExpr, evalExpr]
    refine Guarded.bind (guards_list h) (fun a b _ => ⟨callAt_grows _ _ _ _, callAt_grows _ _ _ _, fun s t hs => ?_⟩) (fun _ => callAt_grows _ _ _ _) (fun _ => callAt_grows _ _ _ _)
    exact other_level hn hu hf hA hh a b hs
  | _, _, .forget e τ h => (guards_expr h).weaken fun _ _ _ => trivial
theorem guards_list : ∀ {l : List (Expr F)} {τ : Trust}, GuardsAll table A Γ l τ → Guarded table A Γ (TrustedAll τ) (evalList (callAt net 1) l) (evalList (callAt net' 1) l)
  | _, _, .nil τ => Guarded.pure fun _ => rfl
  | _, _, .cons e l τ h h' => by
    rw [evalList, evalList]
    have k := guards_expr h
    have k' := guards_list h'
    refine Guarded.bind k (fun a b hab => Guarded.bind k' (fun c d hcd => Guarded.pure fun ht => ?_) (fun _ => grows_pure _) (fun _ => grows_pure _))
      (fun _ => grows_bind k'.left fun _ => grows_pure _) (fun _ => grows_bind k'.right fun _ => grows_pure _)
    subst ht
    rw [show a = b from hab, hcd rfl]
theorem guards_pairs : ∀ {l : List (Expr F × Expr F)} {τ : Trust}, GuardsPairs table A Γ l τ → ∀ acc acc' : List (Str × Value F), TrustedPairs τ acc acc' →
    Guarded table A Γ (TrustedPairs τ) (evalPairs (callAt net 1) acc l) (evalPairs (callAt net' 1) acc' l)
  | _, _, .nil τ, acc, acc', hacc => Guarded.pure hacc
  | _, _, .cons k v l τ h h' h'', acc, acc', hacc => by
    rw [evalPairs, evalPairs]
    have k1 := guards_expr h
    have k2 := guards_expr h'
    have hg := fun a : List (Str × Value F) => evalPairs_grows (callAt_grows net 1) l a
    have hg' := fun a : List (Str × Value F) => evalPairs_grows (callAt_grows net' 1) l a
    refine Guarded.bind k1 (fun a b hab => Guarded.bind k2 (fun c d hcd => guards_pairs h'' _ _ fun ht => ?_) (fun _ => hg _) (fun _ => hg' _))
      (fun _ => grows_bind k2.left fun _ => hg _) (fun _ => grows_bind k2.right fun _ => hg' _)
    subst ht
    rw [show a = b from hab, show c = d from hcd, hacc rfl]
theorem guards_block : ∀ {l : List (Expr F)} {τ : Trust}, GuardsBlock table A Γ l τ → ∀ acc acc' : Value F, (l = [] → acc = acc') →
    Guarded table A Γ (Trusted τ) (evalBlock (callAt net 1) acc l) (evalBlock (callAt net' 1) acc' l)
  | _, _, .nil, acc, acc', hacc => Guarded.pure (hacc rfl)
  | _, _, .last e τ h, acc, acc', _ => by
    simp only [evalBlock]
    exact Guarded.bind (guards_expr h) (fun a b hab => Guarded.pure hab) (fun _ => grows_pure _) (fun _ => grows_pure _)
  | _, _, .cons e l τ h hl h', acc, acc', _ => by
    rw [evalBlock, evalBlock]
    exact Guarded.bind (guards_expr h) (fun a b hab => guards_block h' a b fun hc => absurd hc hl)
      (fun a => evalBlock_grows (callAt_grows net 1) l a) (fun a => evalBlock_grows (callAt_grows net' 1) l a)
  | _, _, .forget l τ h, acc, acc', hacc => (guards_block h acc acc' hacc).weaken fun _ _ _ => trivial
end

end scripts
end Am
