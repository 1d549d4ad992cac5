import Verif.Spec.Judging
import Verif.Proofs.Parens
import Verif.Props.Joining
import Verif.Proofs.EvalCalls
import Verif.Props.Rearrange
import Verif.Props.Unused
/-! # Scripts with other asserts do the same -/
set_option linter.unusedSimpArgs false
set_option linter.unusedSectionVars false
namespace Am
open Spec
variable {F : Type} [Rt F] {A : List (Expr F) → List (Expr F) → Prop} {B : List Assert → List Assert → Prop}

/-! ## Asserts that do nothing but judge -/

/-- Nothing changes, and there is an end; when `safe`, it is no crash. -/
def Stays (safe : Prop) {α : Type} (_ : Nat) (m _ : M F α) : Prop :=
  ∀ s : St F, s.ctx.requests = [] → (m s).2 = s ∧ (m s).1 ≠ .hang ∧ (safe → (m s).1 ≠ .panic)

theorem stays_bind {safe : Prop} {α β : Type} {m n : Nat} {x y : M F α} {f g : α → M F β} (h : Stays safe m x y) (h' : ∀ a, Stays safe n (f a) (g a)) :
    Stays safe (m + n) (x >>= f) (y >>= g) := by
  intro s hs
  obtain ⟨h1, h2, h3⟩ := h s hs
  show (M.bind x f s).2 = s ∧ (M.bind x f s).1 ≠ .hang ∧ (safe → (M.bind x f s).1 ≠ .panic)
  unfold M.bind
  rcases hx : x s with ⟨r, s1⟩
  rw [hx] at h1 h2 h3
  dsimp only at h1 h2 h3
  subst h1
  cases r with
  | ok a => exact h' a s1 hs
  | err e => exact ⟨rfl, (by simp), fun _ => by simp⟩
  | panic => exact ⟨rfl, (by simp), fun k => absurd rfl (h3 k)⟩
  | hang => exact absurd rfl h2

theorem stays_lift {safe : Prop} {α : Type} {n : Nat} {r : Res α} (h : r ≠ .hang) (hp : safe → r ≠ .panic) : Stays (F := F) safe n (M.lift r) (M.lift r) :=
  fun _ _ => ⟨rfl, h, hp⟩

theorem stays_closed (safe : Prop) : Closed (F := F) (Stays safe) where
  pure a := fun _ _ => ⟨rfl, fun h => (by cases h), fun _ h => (by cases h)⟩
  bind := stays_bind
  mono := fun _ h => h
  ident n := by
    intro s _
    unfold readVar
    split <;> exact ⟨rfl, fun h => (by cases h), fun _ h => (by cases h)⟩
  lift h1 h2 := stays_lift h1 fun _ => h2

theorem stays_orElse {safe : Prop} {n : Nat} {x y : M F (Value F)} (d : Value F) (h : Stays safe n x y) : Stays safe n (x.orElse d) (y.orElse d) := by
  intro s hs
  obtain ⟨h1, h2, h3⟩ := h s hs
  unfold M.orElse
  rcases hx : x s with ⟨r, s1⟩
  rw [hx] at h1 h2 h3
  dsimp only at h1 h2 h3
  subst h1
  cases r with
  | ok a => exact ⟨rfl, fun h => (by cases h), fun _ h => (by cases h)⟩
  | err e => exact ⟨rfl, fun h => (by cases h), fun _ h => (by cases h)⟩
  | panic => exact ⟨rfl, fun h => (by cases h), fun k => absurd rfl (h3 k)⟩
  | hang => exact absurd rfl h2

/-- Calls without printing. -/
def mute (call : Call F) : Call F := fun f vs => if f = c!"print" ∨ f = c!"println" then M.lift (.ok .null) else call f vs

theorem stays_mute (safe : Prop) (net : Net) (f : Str) (vs : List (Value F)) : Stays safe 1 (mute (callAt net 0) f vs) (mute (callAt net 0) f vs) := by
  unfold mute
  by_cases hf : f = c!"print" ∨ f = c!"println"
  · rw [if_pos hf]; exact stays_lift (fun h => by cases h) (fun _ h => by cases h)
  · rw [if_neg hf]
    intro s hs
    have h1 : ¬f = c!"println" := fun h => hf (.inr h)
    have h2 : ¬f = c!"print" := fun h => hf (.inl h)
    have hr : s.ctx.request f = none := by unfold Context.request; rw [hs]; rfl
    have key : Stays (F := F) safe 1 (callNative f vs) (callNative f vs) := by
      unfold callNative
      rw [if_neg h1, if_neg h2]
      split
      · exact stays_lift (nativeFormat_fine _).1 fun _ => (nativeFormat_fine _).2
      · split
        · exact stays_lift (nativeLength_fine _).1 fun _ => (nativeLength_fine _).2
        · split
          · exact stays_lift (nativeAppend_fine _).1 fun _ => (nativeAppend_fine _).2
          · exact stays_lift (fun h => by cases h) (fun _ h => by cases h)
    unfold callAt
    rw [hr]
    exact key s hs

/-- One assert that binds nothing and does not print: the state stays. -/
theorem silent_stays (net : Net) {a : Expr F} (h : Silent a) : Stays (∀ o ∈ ops a, SafeOp (Rt.checks F) o) (calls a) (evalExpr (callAt net 0) a) (evalExpr (callAt net 0) a) := by
  have e : evalExpr (callAt net 0) a = evalExpr (mute (callAt net 0)) a := by
    refine evalExpr_names _ _ a fun f hf => ?_
    funext vs
    unfold mute
    rw [if_neg]
    rintro (k | k)
    · exact (h.2 f hf).1 k
    · exact (h.2 f hf).2 k
  rw [e]
  intro s hs
  have hl : ∀ (safe : Prop), ∀ n ∈ lets a, ∀ v : Value F, Stays safe 0 (writeVar n v) (writeVar n v) := by
    intro safe n hn
    rw [h.1] at hn
    cases hn
  have k1 := evalExpr_closed (stays_closed False) (stays_mute False net) a (hl False) (fun _ _ => .inl fun _ => stays_lift (fun h => by cases h) (fun h => h.elim)) s hs
  refine ⟨k1.1, k1.2.1, fun hsafe => ?_⟩
  exact (evalExpr_closed (stays_closed True) (stays_mute True net) a (hl True) (fun o ho => .inr (safe_harmless (hsafe o ho))) s hs).2.2 trivial

/-- The result of one assert, as part of a list. -/
def outcome (net : Net) (a : Expr F) (s : St F) : Res (List Assert) := (evalAsserts (callAt net 0) [a] s).1

theorem silent_sides {t : Token} {l r : Expr F} (h : Silent (.binary t l r)) : Silent l ∧ Silent r := by
  obtain ⟨h1, h2⟩ := h
  simp only [lets, called, List.append_eq_nil_iff, List.mem_append] at h1 h2
  exact ⟨⟨h1.1, fun f hf => h2 f (.inl hf)⟩, h1.2, fun f hf => h2 f (.inr hf)⟩

/-- A first assert and the rest. -/
theorem evalAsserts_outcome (net : Net) {a : Expr F} (h : Silent a) (rest : List (Expr F)) (s : St F) (hs : s.ctx.requests = []) :
    ((∃ l, outcome net a s = .ok l ∧ evalAsserts (callAt net 0) (a :: rest) s = ((evalAsserts (callAt net 0) rest s).1 >>= fun m => .ok (l ++ m), (evalAsserts (callAt net 0) rest s).2)) ∨
      (outcome net a s = .panic ∧ evalAsserts (callAt net 0) (a :: rest) s = (.panic, s) ∧ ¬∀ o ∈ ops a, SafeOp (Rt.checks F) o)) := by
  by_cases hb : ∃ t l r, a = .binary t l r
  · obtain ⟨t, l, r, rfl⟩ := hb
    obtain ⟨hl, hr⟩ := silent_sides h
    have k1 := stays_orElse .null (silent_stays net hl) s hs
    have k2 := stays_orElse .null (silent_stays net hr) s hs
    have ne : ∀ e : Expr F, ∀ m, ((evalExpr (callAt net 0) e).orElse .null s).1 ≠ .err m := by
      intro e m
      unfold M.orElse
      rcases evalExpr (callAt net 0) e s with ⟨x, u⟩
      cases x <;> exact fun h => (by cases h)
    have n1 := ne l
    have n2 := ne r
    have go : ∀ rest, evalAsserts (callAt net 0) (.binary t l r :: rest) s = (match (evalExpr (callAt net 0) l).orElse .null s with
        | (.ok a, s1) => (match (evalExpr (callAt net 0) r).orElse .null s1 with
          | (.ok b, s2) => (match evalAsserts (callAt net 0) rest s2 with
            | (.ok as, s3) => (match compareValues t.kind a b with
              | some result => (.ok (⟨l.display ++ c!" " ++ t.literal ++ c!" " ++ r.display, a.display, t.literal, b.display, result⟩ :: as), s3)
              | none => (.ok as, s3))
            | (.err e, s3) => (.err e, s3)
            | (.panic, s3) => (.panic, s3)
            | (.hang, s3) => (.hang, s3))
          | (.err e, s2) => (.err e, s2)
          | (.panic, s2) => (.panic, s2)
          | (.hang, s2) => (.hang, s2))
        | (.err e, s1) => (.err e, s1)
        | (.panic, s1) => (.panic, s1)
        | (.hang, s1) => (.hang, s1)) := by
      intro rest
      simp only [evalAsserts]
      show M.bind _ _ s = _
      unfold M.bind
      rcases (evalExpr (callAt net 0) l).orElse .null s with ⟨x, s1⟩
      cases x with
      | ok a =>
        dsimp only
        show M.bind _ _ s1 = _
        unfold M.bind
        rcases (evalExpr (callAt net 0) r).orElse .null s1 with ⟨y, s2⟩
        cases y with
        | ok b =>
          dsimp only
          show M.bind _ _ s2 = _
          unfold M.bind
          rcases evalAsserts (callAt net 0) rest s2 with ⟨z, s3⟩
          cases z with
          | ok as => dsimp only; cases compareValues t.kind a b <;> rfl
          | err e => rfl
          | panic => rfl
          | hang => rfl
        | err e => rfl
        | panic => rfl
        | hang => rfl
      | err e => rfl
      | panic => rfl
      | hang => rfl
    unfold outcome
    rw [go rest, go []]
    rcases hx : (evalExpr (callAt net 0) l).orElse .null s with ⟨x, s1⟩
    rcases hy : (evalExpr (callAt net 0) r).orElse .null s with ⟨y, s2⟩
    rw [hx] at k1 n1
    rw [hy] at k2 n2
    dsimp only at k1 k2 n1 n2
    obtain ⟨rfl, a2, a3⟩ := k1
    obtain ⟨e2, b2, b3⟩ := k2
    subst e2
    have so : ∀ o, (o ∈ ops l ∨ o ∈ ops r) → o ∈ ops (.binary t l r) := by
      intro o ho
      simp only [ops, List.mem_cons, List.mem_append]
      exact .inr ho
    cases x with
    | ok a =>
      dsimp only
      rw [hy]
      cases y with
      | ok b =>
        left
        dsimp only
        show ∃ l, _ ∧ _
        have e0 : evalAsserts (callAt net 0) ([] : List (Expr F)) s2 = (.ok [], s2) := rfl
        rw [e0]
        dsimp only
        cases compareValues t.kind a b with
        | none =>
          refine ⟨[], rfl, ?_⟩
          rcases evalAsserts (callAt net 0) rest s2 with ⟨z, s3⟩
          cases z <;> rfl
        | some result =>
          refine ⟨_, rfl, ?_⟩
          rcases evalAsserts (callAt net 0) rest s2 with ⟨z, s3⟩
          cases z <;> rfl
      | err e => exact absurd rfl (n2 e)
      | panic => exact .inr ⟨rfl, rfl, fun hsafe => absurd rfl (b3 fun o ho => hsafe o (so o (.inr ho)))⟩
      | hang => exact absurd rfl b2
    | err e => exact absurd rfl (n1 e)
    | panic => exact .inr ⟨rfl, rfl, fun hsafe => absurd rfl (a3 fun o ho => hsafe o (so o (.inl ho)))⟩
    | hang => exact absurd rfl a2
  · have hb : ∀ t l r, a ≠ .binary t l r := fun t l r e => hb ⟨t, l, r, e⟩
    left
    unfold outcome
    rw [evalAsserts_skip _ hb, evalAsserts_skip _ hb]
    refine ⟨[], rfl, ?_⟩
    rcases evalAsserts (callAt net 0) rest s with ⟨z, s3⟩
    cases z <;> rfl

/-- Asserts that bind nothing and do not print change nothing; they give results unless one crashes. -/
theorem evalAsserts_silent (net : Net) {as : List (Expr F)} (h : ∀ a ∈ as, Silent a) (s : St F) (hs : s.ctx.requests = []) :
    (∃ l, evalAsserts (callAt net 0) as s = (.ok l, s)) ∨ (evalAsserts (callAt net 0) as s = (.panic, s) ∧ ∃ a ∈ as, ¬∀ o ∈ ops a, SafeOp (Rt.checks F) o) := by
  induction as with
  | nil => exact .inl ⟨[], rfl⟩
  | cons a as ih =>
    rcases evalAsserts_outcome net (h a List.mem_cons_self) as s hs with ⟨l, _, e⟩ | ⟨_, e, k⟩
    · rcases ih fun b hb => h b (List.mem_cons_of_mem _ hb) with ⟨m, e'⟩ | ⟨e', b, hb, k⟩
      · rw [e, e']; exact .inl ⟨l ++ m, rfl⟩
      · rw [e, e']; exact .inr ⟨rfl, b, List.mem_cons_of_mem _ hb, k⟩
    · exact .inr ⟨e, a, List.mem_cons_self, k⟩

/-- In another order: the same results in another order. -/
theorem evalAsserts_perm (net : Net) {as as' : List (Expr F)} (hp : as.Perm as') (h : ∀ a ∈ as, Silent a) (s : St F) (hs : s.ctx.requests = []) :
    (∃ l l', evalAsserts (callAt net 0) as s = (.ok l, s) ∧ evalAsserts (callAt net 0) as' s = (.ok l', s) ∧ l.Perm l') ∨
    (evalAsserts (callAt net 0) as s = (.panic, s) ∧ evalAsserts (callAt net 0) as' s = (.panic, s)) := by
  induction hp with
  | nil => exact .inl ⟨[], [], rfl, rfl, .nil⟩
  | cons a _ ih =>
    rename_i as as' _
    have h' : ∀ b ∈ as, Silent b := fun b hb => h b (List.mem_cons_of_mem _ hb)
    rcases evalAsserts_outcome net (h a List.mem_cons_self) as s hs with ⟨l, o, e⟩ | ⟨o, e, _⟩
    · rcases evalAsserts_outcome net (h a List.mem_cons_self) as' s hs with ⟨l', o', e'⟩ | ⟨o', _, _⟩
      · rw [o] at o'
        cases o'
        rcases ih h' with ⟨m, m', f, f', p⟩ | ⟨f, f'⟩
        · rw [e, e', f, f']; exact .inl ⟨_, _, rfl, rfl, p.append_left l⟩
        · rw [e, e', f, f']; exact .inr ⟨rfl, rfl⟩
      · rw [o] at o'; cases o'
    · rcases evalAsserts_outcome net (h a List.mem_cons_self) as' s hs with ⟨l', o', e'⟩ | ⟨_, e', _⟩
      · rw [o] at o'; cases o'
      · exact .inr ⟨e, e'⟩
  | swap a b as =>
    have ha : Silent a := h a (List.mem_cons_of_mem _ List.mem_cons_self)
    have hb : Silent b := h b List.mem_cons_self
    have h' : ∀ c ∈ as, Silent c := fun c hc => h c (List.mem_cons_of_mem _ (List.mem_cons_of_mem _ hc))
    rcases evalAsserts_outcome net ha as s hs with ⟨l, o, e⟩ | ⟨o, e, _⟩
    · rcases evalAsserts_outcome net hb as s hs with ⟨m, p, f⟩ | ⟨p, f, _⟩
      · rcases evalAsserts_outcome net hb (a :: as) s hs with ⟨m', p', f'⟩ | ⟨p', _, _⟩
        · rcases evalAsserts_outcome net ha (b :: as) s hs with ⟨l', o', e'⟩ | ⟨o', _, _⟩
          · rw [o] at o'; cases o'
            rw [p] at p'; cases p'
            rw [f', e', e, f]
            rcases evalAsserts_silent net h' s hs with ⟨x, g⟩ | ⟨g, _⟩
            · rw [g]
              refine .inl ⟨_, _, rfl, rfl, ?_⟩
              rw [← List.append_assoc, ← List.append_assoc]
              exact List.perm_append_comm.append_right x
            · rw [g]; exact .inr ⟨rfl, rfl⟩
          · rw [o] at o'; cases o'
        · rw [p] at p'; cases p'
      · rcases evalAsserts_outcome net hb (a :: as) s hs with ⟨m', p', f'⟩ | ⟨p', f', _⟩
        · rw [p] at p'; cases p'
        · rcases evalAsserts_outcome net ha (b :: as) s hs with ⟨l', o', e'⟩ | ⟨o', _, _⟩
          · rw [f', e', f]; exact .inr ⟨rfl, rfl⟩
          · rw [o] at o'; cases o'
    · rcases evalAsserts_outcome net ha (b :: as) s hs with ⟨l', o', e'⟩ | ⟨o', e', _⟩
      · rw [o] at o'; cases o'
      · rcases evalAsserts_outcome net hb (a :: as) s hs with ⟨m', p', f'⟩ | ⟨p', f', _⟩
        · rw [f', e', e]; exact .inr ⟨rfl, rfl⟩
        · exact .inr ⟨f', e'⟩
  | trans p q ih1 ih2 =>
    rcases ih1 h with ⟨l, l', e, e', k⟩ | ⟨e, e'⟩
    · rcases ih2 fun a ha => h a (p.mem_iff.2 ha) with ⟨m, m', f, f', k'⟩ | ⟨f, f'⟩
      · rw [e'] at f
        cases f
        exact .inl ⟨l, m', e, f', k.trans k'⟩
      · rw [e'] at f; cases f
    · rcases ih2 fun a ha => h a (p.mem_iff.2 ha) with ⟨m, m', f, f', k'⟩ | ⟨f, f'⟩
      · rw [e'] at f; cases f
      · exact .inr ⟨e, f'⟩

/-! ## Runs -/

/-- Asserts related by `A` change nothing and give results related by `B`, or both crash. -/
def Judged (A : List (Expr F) → List (Expr F) → Prop) (B : List Assert → List Assert → Prop) : Prop :=
  ∀ (net : Net) (as as' : List (Expr F)) (s : St F), A as as' → s.ctx.requests = [] →
    (∃ l l', evalAsserts (callAt net 0) as s = (.ok l, s) ∧ evalAsserts (callAt net 0) as' s = (.ok l', s) ∧ B l l') ∨
    (evalAsserts (callAt net 0) as s = (.panic, s) ∧ evalAsserts (callAt net 0) as' s = (.panic, s))

theorem judged_any : Judged (F := F) AnyJudges fun _ _ => True := by
  intro net as as' s ⟨h, h'⟩ hs
  left
  rcases evalAsserts_silent net (fun a ha => (h a ha).1) s hs with ⟨l, e⟩ | ⟨_, a, ha, k⟩
  · rcases evalAsserts_silent net (fun a ha => (h' a ha).1) s hs with ⟨l', e'⟩ | ⟨_, a, ha, k⟩
    · exact ⟨l, l', e, e', trivial⟩
    · exact absurd (h' a ha).2 k
  · exact absurd (h a ha).2 k

theorem judged_order : Judged (F := F) AnyOrder List.Perm := fun net _ _ s h hs => evalAsserts_perm net h.1 h.2 s hs

/-- The same end in such states. -/
def Alongside (A : List (Expr F) → List (Expr F) → Prop) (B : List Assert → List Assert → Prop) {α : Type} (_ : Nat) (m m' : M F α) : Prop :=
  ∀ s t, SameButVerdicts A B s t → (m s).1 = (m' t).1 ∧ SameButVerdicts A B (m s).2 (m' t).2

theorem alongside_lift {α : Type} (n : Nat) (r : Res α) : Alongside (F := F) A B n (M.lift r) (M.lift r) := fun _ _ h => ⟨rfl, h⟩

theorem alongside_bind {α β : Type} {m n : Nat} {x y : M F α} {f g : α → M F β} (h : Alongside A B m x y) (h' : ∀ a, Alongside A B n (f a) (g a)) :
    Alongside A B (m + n) (x >>= f) (y >>= g) := by
  intro s t hs
  have h1 := h s t hs
  show (M.bind x f s).1 = (M.bind y g t).1 ∧ SameButVerdicts A B (M.bind x f s).2 (M.bind y g t).2
  unfold M.bind
  rcases hx : x s with ⟨r, s1⟩
  rcases hy : y t with ⟨r', t1⟩
  rw [hx, hy] at h1
  obtain ⟨h1, h2⟩ := h1
  dsimp only at h1 h2
  subst h1
  cases r with
  | ok a => exact h' a s1 t1 h2
  | err e => exact ⟨rfl, h2⟩
  | panic => exact ⟨rfl, h2⟩
  | hang => exact ⟨rfl, h2⟩

theorem alongside_closed : Closed (F := F) (Alongside A B) where
  pure a := fun _ _ h => ⟨rfl, h⟩
  bind := alongside_bind
  mono := fun _ h => h
  ident n := by
    intro s t h
    have hg : s.ctx.get n = t.ctx.get n := by unfold Context.get; rw [h.variables]
    unfold readVar
    rw [hg]
    split <;> exact ⟨rfl, h⟩
  lift _ _ := alongside_lift 0 _

theorem alongside_write (n : Str) (v : Value F) : Alongside A B 0 (writeVar n v) (writeVar n v) := by
  intro s t ⟨h1, h2, h3, h4, h5⟩
  exact ⟨rfl, congrArg (amInsert n v) h1, h2, h3, h4, h5⟩

theorem alongside_say (text : Str) :
    Alongside (F := F) A B 0 (M.modify fun s => { s with out := s.out ++ text }) (M.modify fun s => { s with out := s.out ++ text }) := by
  intro s t ⟨h1, h2, h3, h4, h5⟩
  exact ⟨rfl, h1, h2, h3, h4, congrArg (· ++ text) h5⟩

theorem alongside_native (name : Str) (args : List (Value F)) : Alongside A B 1 (callNative name args) (callNative name args) := by
  unfold callNative
  simp only [List.append_assoc]
  split
  · exact alongside_bind (m := 1) (n := 0) (alongside_lift 1 _) fun v => alongside_bind (m := 0) (n := 0) (alongside_say _) fun _ => alongside_closed.pure _
  · split
    · exact alongside_bind (m := 1) (n := 0) (alongside_lift 1 _) fun v => alongside_bind (m := 0) (n := 0) (alongside_say _) fun _ => alongside_closed.pure _
    · repeat (first | exact alongside_lift 1 _ | split)

theorem alongside_request (hj : Judged A B) (net : Net) (name msg : Str) {as as' : List (Expr F)} (h : A as as') :
    Alongside A B 1 (callRequest net (callAt net 0) name msg as) (callRequest net (callAt net 0) name msg as') := by
  intro s t hs
  rw [callRequest_exchange, callRequest_exchange, render_inner hs.variables, hs.sent]
  generalize render t.ctx msg = text
  generalize hbefore : t.sent = before
  clear hbefore
  revert s t
  show Alongside A B (0 + 0) _ _
  unfold exchangeOf
  refine alongside_bind (m := 0) (n := 0) (fun s t ⟨h1, h2, h3, h4, h5⟩ => ⟨rfl, h1, h2, h3, congrArg (· ++ [text]) h4, h5⟩) fun _ => ?_
  refine alongside_bind (m := 0) (n := 0) (alongside_lift 0 _) fun p => ?_
  refine alongside_bind (m := 0) (n := 0) (alongside_lift 0 _) fun map => ?_
  intro s t ⟨h1, h2, h3, h4, h5⟩
  show (M.bind _ _ s).1 = (M.bind _ _ t).1 ∧ SameButVerdicts A B (M.bind _ _ s).2 (M.bind _ _ t).2
  unfold M.bind inLocal
  rw [h4, h5]
  rcases hj net as as' { ctx := Context.ofMap map, sent := t.sent, out := t.out } h rfl with ⟨l, l', e, e', k⟩ | ⟨e, e'⟩
  · rw [e, e']
    exact ⟨rfl, h1, h2, each_snoc h3 ⟨rfl, rfl, rfl, rfl, rfl, k⟩, rfl, rfl⟩
  · rw [e, e']
    exact ⟨rfl, h1, h2, h3, rfl, rfl⟩

theorem otherDefinition_get {l l' : List (Str × (Str × List (Expr F)))} (h : Each (OtherDefinition A) l l') (n : Str) :
    (amGet n l = none ∧ amGet n l' = none) ∨ ∃ m as as', amGet n l = some (m, as) ∧ amGet n l' = some (m, as') ∧ A as as' := by
  induction h with
  | nil => exact .inl ⟨rfl, rfl⟩
  | @cons p p' l l' hp _ ih =>
    obtain ⟨k, m, as⟩ := p
    obtain ⟨k', m', as'⟩ := p'
    obtain ⟨e1, e2, e3⟩ := hp
    dsimp only at e1 e2 e3
    subst e1 e2
    simp only [amGet]
    by_cases hn : k = n
    · rw [if_pos hn, if_pos hn]
      exact .inr ⟨m, as, as', rfl, rfl, e3⟩
    · rw [if_neg hn, if_neg hn]
      exact ih

theorem alongside_callAt (hj : Judged A B) (net : Net) (name : Str) (args : List (Value F)) :
    Alongside A B 1 (callAt net 1 name args) (callAt net 1 name args) := by
  intro s t hs
  have hd := otherDefinition_get hs.requests name
  unfold callAt Context.request
  rcases hd with ⟨h1, h2⟩ | ⟨m, as, as', h1, h2, h3⟩
  · rw [h1, h2]; exact alongside_native name args s t hs
  · rw [h1, h2]
    exact alongside_request hj net name m h3 s t hs

theorem alongside_runBlock (hj : Judged A B) (net : Net) (es : List (Expr F)) : Alongside A B (callsList es) (runBlock net es) (runBlock net es) :=
  evalBlock_closed alongside_closed (alongside_callAt hj net) es .null (fun n _ v => alongside_write n v) (fun _ _ => .inl fun _ => alongside_lift 0 _)

/-! ## Sources -/

theorem otherDefinition_insert {l l' : List (Str × (Str × List (Expr F)))} (h : Each (OtherDefinition A) l l') (n m : Str)
    {as as' : List (Expr F)} (ha : A as as') : Each (OtherDefinition A) (amInsert n (m, as) l) (amInsert n (m, as') l') := by
  induction h with
  | nil => exact .cons ⟨rfl, rfl, ha⟩ .nil
  | @cons p p' l l' hp hl ih =>
    obtain ⟨k, m1, as1⟩ := p
    obtain ⟨k', m1', as1'⟩ := p'
    obtain ⟨e1, e2, e3⟩ := hp
    dsimp only at e1 e2 e3
    subst e1 e2
    simp only [amInsert]
    by_cases hn : k = n
    · rw [if_pos hn, if_pos hn]; exact .cons ⟨rfl, rfl, ha⟩ hl
    · rw [if_neg hn, if_neg hn]; exact .cons ⟨rfl, rfl, e3⟩ ih

theorem otherDefinition_extend {l l' : List (Str × (Str × List (Expr F)))} (h : Each (OtherDefinition A) l l')
    {m m' : List (Str × (Str × List (Expr F)))} (hm : Each (OtherDefinition A) m m') : Each (OtherDefinition A) (amExtend l m) (amExtend l' m') := by
  induction hm generalizing l l' with
  | nil => exact h
  | @cons p p' m m' hp _ ih =>
    obtain ⟨k, t, as⟩ := p
    obtain ⟨k', t', as'⟩ := p'
    obtain ⟨e1, e2, e3⟩ := hp
    dsimp only at e1 e2 e3
    subst e1 e2
    exact ih (otherDefinition_insert h k t e3)

theorem otherItems_source {is is' : List (Item F)} (h : Each (OtherItem A) is is') : ∀ {src src' : Source F},
    src.exprs = src'.exprs → src.tests = src'.tests → Each (OtherDefinition A) src.requests src'.requests →
    (is.foldl addItem src).exprs = (is'.foldl addItem src').exprs ∧ (is.foldl addItem src).tests = (is'.foldl addItem src').tests ∧
      Each (OtherDefinition A) (is.foldl addItem src).requests (is'.foldl addItem src').requests := by
  induction h with
  | nil => intro src src' h1 h2 h3; exact ⟨h1, h2, h3⟩
  | cons hi _ ih =>
    intro src src' h1 h2 h3
    rw [List.foldl_cons, List.foldl_cons]
    cases hi with
    | expr e => exact ih (congrArg (· ++ [e]) h1) h2 h3
    | request n m ha => exact ih h1 h2 (otherDefinition_insert h3 n m ha)
    | test n b => exact ih h1 (congrArg (amInsert n b) h2) h3

/-- The whole: texts with other asserts. -/
theorem judged_text (hj : Judged A B) (net : Net) (text text' : Str) (is is' : List (Item F)) (h1 : Accepted text is) (h2 : Accepted text' is')
    (h : Each (OtherItem A) is is') (s s' : St F) (hs : SameButVerdicts A B s s') :
    (evalText net text s).1 = (evalText net text' s').1 ∧ SameButVerdicts A B (evalText net text s).2 (evalText net text' s').2 := by
  obtain ⟨a, _, b⟩ := otherItems_source h (src := ⟨[], [], []⟩) (src' := ⟨[], [], []⟩) rfl rfl .nil
  have p1 := accepted_items h1
  have p2 := accepted_items h2
  generalize is.foldl addItem ⟨[], [], []⟩ = src at *
  generalize is'.foldl addItem ⟨[], [], []⟩ = src' at *
  have hx : SameButVerdicts A B { s with ctx := s.ctx.extend src.requests } { s' with ctx := s'.ctx.extend src'.requests } :=
    ⟨hs.variables, otherDefinition_extend hs.requests b, hs.records, hs.sent, hs.out⟩
  have hb := alongside_runBlock hj net src.exprs _ _ hx
  have e1 : evalText net text s = (match runBlock net src.exprs { s with ctx := s.ctx.extend src.requests } with
      | (.ok v, s) => sayLine v.display s
      | (.err e, s) => sayLine e s
      | (.panic, s) => (.panic, s)
      | (.hang, s) => (.hang, s)) := by unfold evalText; rw [p1]; rfl
  have e2 : evalText net text' s' = (match runBlock net src'.exprs { s' with ctx := s'.ctx.extend src'.requests } with
      | (.ok v, s) => sayLine v.display s
      | (.err e, s) => sayLine e s
      | (.panic, s) => (.panic, s)
      | (.hang, s) => (.hang, s)) := by unfold evalText; rw [p2]; rfl
  rw [e1, e2, ← a]
  rcases hy : runBlock net src.exprs { s with ctx := s.ctx.extend src.requests } with ⟨r, t⟩
  rcases hz : runBlock net src.exprs { s' with ctx := s'.ctx.extend src'.requests } with ⟨r', t'⟩
  rw [hy, hz] at hb
  obtain ⟨hb1, k1, k2, k3, k4, k5⟩ := hb
  dsimp only at hb1 k1 k2 k3 k4 k5
  subst hb1
  cases r with
  | ok v => exact ⟨rfl, k1, k2, k3, k4, congrArg (· ++ v.display ++ c!"\n") k5⟩
  | err e => exact ⟨rfl, k1, k2, k3, k4, congrArg (· ++ e ++ c!"\n") k5⟩
  | panic => exact ⟨rfl, k1, k2, k3, k4, k5⟩
  | hang => exact ⟨rfl, k1, k2, k3, k4, k5⟩

/-! ## Runs of tests -/

theorem each_append {α : Type} {P : α → α → Prop} {a b a' b' : List α} (h : Each P a a') (h' : Each P b b') : Each P (a ++ b) (a' ++ b') := by
  induction h with
  | nil => exact h'
  | cons h1 _ ih => exact .cons h1 ih

theorem each_shown (i : Nat) (l : List Str) : Each (ShownJudged B) (l.map fun t => (some i, t)) (l.map fun t => (some i, t)) := by
  induction l with
  | nil => exact .nil
  | cons t l ih => exact .cons ⟨rfl, .inl rfl⟩ ih

theorem judged_start (hj : Judged A B) (order : List (Str × List (Expr F)) → List (Str × List (Expr F))) (net : Net) (args : TestArgs) {text text' : Str}
    {is is' : List (Item F)} (h1 : Accepted text is) (h2 : Accepted text' is') (h : Each (OtherItem A) is is') :
    StartedJudged A B (startTest order net args text).1 (startTest order net args text').1 ∧
    SameButVerdicts A B (startTest order net args text).2 (startTest order net args text').2 := by
  obtain ⟨a, b, c⟩ := otherItems_source h (src := ⟨[], [], []⟩) (src' := ⟨[], [], []⟩) rfl rfl .nil
  have p1 := accepted_items h1
  have p2 := accepted_items h2
  generalize is.foldl addItem ⟨[], [], []⟩ = src at *
  generalize is'.foldl addItem ⟨[], [], []⟩ = src' at *
  have hx := alongside_runBlock hj net src.exprs { (⟨Context.new, [], []⟩ : St F) with ctx := Context.new.extend src.requests }
    { (⟨Context.new, [], []⟩ : St F) with ctx := Context.new.extend src'.requests } ⟨rfl, otherDefinition_extend .nil c, .nil, rfl, rfl⟩
  unfold startTest setup
  rw [p1, p2]
  dsimp only at hx ⊢
  rw [← a, ← b]
  rcases hy : runBlock net src.exprs { ctx := Context.new.extend src.requests, sent := [], out := [] } with ⟨r, t⟩
  rcases hz : runBlock net src.exprs { ctx := Context.new.extend src'.requests, sent := [], out := [] } with ⟨r', t'⟩
  rw [hy, hz] at hx
  obtain ⟨hb1, k1, k2, k3, k4, k5⟩ := hx
  dsimp only at hb1 k1 k2 k3 k4 k5
  subst hb1
  have hinit : ∀ (name : Str) (test : List (Expr F)), WorkerJudged A B (Worker.init args.record t.ctx name test) (Worker.init args.record t'.ctx name test) :=
    fun name test => ⟨.head, rfl, rfl, ⟨k1, k2, .nil⟩, rfl, rfl⟩
  cases r with
  | err m => exact ⟨.ended, k1, k2, k3, k4, congrArg (fun o => o ++ m ++ c!"\n") k5⟩
  | panic => exact ⟨.panicked, k1, k2, k3, k4, k5⟩
  | hang => exact ⟨.endless, k1, k2, k3, k4, k5⟩
  | ok v =>
    dsimp only
    unfold startWorkers
    cases hname : args.name with
    | some name =>
      dsimp only
      cases hl : amGet name src.tests with
      | none => exact ⟨.threads _ _ _ .nil, k1, k2, k3, k4, congrArg (fun o => o ++ (c!"Test not found: " ++ name) ++ c!"\n") k5⟩
      | some test =>
        dsimp only
        cases perThread (limits args.duration args.number).2 args.threads with
        | ok n => exact ⟨.threads _ _ _ (each_replicate (hinit name test) _), k1, k2, k3, k4, k5⟩
        | err m => exact ⟨.ended, k1, k2, k3, k4, k5⟩
        | panic => exact ⟨.panicked, k1, k2, k3, k4, k5⟩
        | hang => exact ⟨.endless, k1, k2, k3, k4, k5⟩
    | none =>
      refine ⟨.threads _ _ _ ?_, k1, k2, k3, k4, k5⟩
      generalize order src.tests = l
      induction l with
      | nil => exact .nil
      | cons p l ih => exact .cons (hinit p.1 p.2) ih

theorem workerStep_judged (hj : Judged A B) (cfg : Config) (cont : Bool) (i : Nat) (net : Net) {w w' : Worker F} (h : WorkerJudged A B w w') :
    (w.step cfg cont i net = none ∧ w'.step cfg cont i net = none) ∨
    ∃ v v' e e', w.step cfg cont i net = some (v, e) ∧ w'.step cfg cont i net = some (v', e') ∧ WorkerJudged A B v v' ∧
      Each (Each (OtherVerdict B)) e.sent e'.sent ∧ Each (ShownJudged B) (e.out.map fun t => (some i, t)) (e'.out.map fun t => (some i, t)) := by
  obtain ⟨p, n, t, c, k, f⟩ := w
  obtain ⟨p', n', t', c', k', f'⟩ := w'
  obtain ⟨hp, rfl, rfl, hc, rfl, hf⟩ := h
  dsimp only at hp hc hf
  unfold Worker.step
  dsimp only
  cases hp with
  | head =>
    dsimp only
    split
    · split
      · exact .inr ⟨_, _, _, _, rfl, rfl, ⟨.eval, rfl, rfl, hc, rfl, hf⟩, .nil, .nil⟩
      · exact .inr ⟨_, _, _, _, rfl, rfl, ⟨.done, rfl, rfl, hc, rfl, hf⟩, .nil, .nil⟩
    · exact .inr ⟨_, _, _, _, rfl, rfl, ⟨.eval, rfl, rfl, hc, rfl, hf⟩, .nil, .nil⟩
  | eval =>
    dsimp only
    have hx := alongside_runBlock hj net t ⟨c, [], []⟩ ⟨c', [], []⟩ ⟨hc.variables, hc.requests, hc.records, rfl, rfl⟩
    rcases hy : runBlock net t ⟨c, [], []⟩ with ⟨r, s⟩
    rcases hz : runBlock net t ⟨c', [], []⟩ with ⟨r', s'⟩
    rw [hy, hz] at hx
    obtain ⟨hb1, k1, k2, k3, _, k5⟩ := hx
    dsimp only at hb1 k1 k2 k3 k5
    subst hb1
    cases r with
    | ok v =>
      dsimp only [Context.takeRecords]
      rw [k5]
      exact .inr ⟨_, _, _, _, rfl, rfl, ⟨.print k3 k3, rfl, rfl, ⟨k1, k2, .nil⟩, rfl, hf⟩, .nil, each_shown i _⟩
    | err e =>
      dsimp only [Context.takeRecords]
      rw [k5]
      split
      · exact .inr ⟨_, _, _, _, rfl, rfl, ⟨.done, rfl, rfl, ⟨k1, k2, k3⟩, rfl, hf⟩, .nil, each_shown i _⟩
      · exact .inr ⟨_, _, _, _, rfl, rfl, ⟨.print k3 k3, rfl, rfl, ⟨k1, k2, .nil⟩, rfl, hf⟩, .nil, each_shown i _⟩
    | panic =>
      dsimp only
      rw [k5]
      exact .inr ⟨_, _, _, _, rfl, rfl, ⟨.done, rfl, rfl, ⟨k1, k2, k3⟩, rfl, hf⟩, .nil, each_shown i _⟩
    | hang =>
      dsimp only
      rw [k5]
      exact .inr ⟨_, _, _, _, rfl, rfl, ⟨.stuck, rfl, rfl, ⟨k1, k2, k3⟩, rfl, hf⟩, .nil, each_shown i _⟩
  | print h1 h2 =>
    cases h2 with
    | nil => exact .inr ⟨_, _, _, _, rfl, rfl, ⟨.write h1, rfl, rfl, hc, rfl, hf⟩, .nil, .nil⟩
    | @cons r r' _ _ h3 h4 => exact .inr ⟨_, _, _, _, rfl, rfl, ⟨.print h1 h4, rfl, rfl, hc, rfl, hf⟩, .nil, .cons ⟨rfl, .inr ⟨r, r', h3, rfl, rfl⟩⟩ .nil⟩
  | write h1 =>
    have hf' : ∀ (g g' : List UInt8 → List UInt8), (f.map g).isSome = (f'.map g').isSome := by
      intro g g'
      cases f <;> cases f' <;> first | rfl | cases hf
    dsimp only
    split
    · exact .inr ⟨_, _, _, _, rfl, rfl, ⟨.send h1, rfl, rfl, hc, rfl, hf' _ _⟩, .nil, .nil⟩
    · exact .inr ⟨_, _, _, _, rfl, rfl, ⟨.done, rfl, rfl, hc, rfl, hf' _ _⟩, .nil, .nil⟩
  | send h1 =>
    refine .inr ⟨_, _, _, _, rfl, rfl, ⟨.head, rfl, rfl, hc, rfl, hf⟩, ?_, .nil⟩
    dsimp only
    split
    · exact .cons h1 .nil
    · exact .nil
  | done => exact .inl ⟨rfl, rfl⟩
  | stuck => exact .inl ⟨rfl, rfl⟩

theorem judged_done {ws ws' : List (Worker F)} (h : Each (WorkerJudged A B) ws ws') : (ws.all fun w => w.pc == .done) = ws'.all fun w => w.pc == .done := by
  induction h with
  | nil => rfl
  | @cons w w' _ _ h1 _ ih =>
    have : (w.pc == WorkerPc.done) = (w'.pc == WorkerPc.done) := by
      have hp := h1.pc
      generalize w.pc = p at hp
      generalize w'.pc = p' at hp
      cases hp <;> rfl
    simp only [List.all_cons, this, ih]

theorem addBatch_judged {rs rs' : List Record} (h : Each (OtherVerdict B) rs rs') (st : Stats) : addBatch st rs = addBatch st rs' := by
  unfold addBatch
  induction h generalizing st with
  | nil => rfl
  | cons h1 _ ih =>
    rw [List.foldl_cons, List.foldl_cons, h1.1, h1.2.1]
    exact ih _

theorem runStep_judged (hj : Judged A B) (cfg : Config) {r r' : Run F} (h : RunJudged A B r r') (s : RunStep) :
    (r.step cfg s = none ∧ r'.step cfg s = none) ∨ ∃ q q', r.step cfg s = some q ∧ r'.step cfg s = some q' ∧ RunJudged A B q q' := by
  obtain ⟨ws, ct, ch, ms, co, st, ou⟩ := r
  obtain ⟨ws', ct', ch', ms', co', st', ou'⟩ := r'
  obtain ⟨hw, rfl, hch, rfl, rfl, rfl, ho⟩ := h
  dsimp only at hw hch ho
  cases s with
  | work i net =>
    unfold Run.step
    dsimp only
    rcases hw.get i with ⟨h1, h2⟩ | ⟨w, w', h1, h2, h3⟩
    · rw [h1, h2]; exact .inl ⟨rfl, rfl⟩
    · rw [h1, h2]
      dsimp only
      rcases workerStep_judged hj cfg ct i net h3 with ⟨h4, h5⟩ | ⟨v, v', e, e', h4, h5, h6, h7, h8⟩
      · rw [h4, h5]; exact .inl ⟨rfl, rfl⟩
      · rw [h4, h5]
        exact .inr ⟨_, _, rfl, rfl, ⟨hw.set i h6, rfl, each_append hch h7, rfl, rfl, rfl, each_append ho h8⟩⟩
  | stop => exact .inr ⟨_, _, rfl, rfl, ⟨hw, rfl, hch, rfl, rfl, rfl, ho⟩⟩
  | drop =>
    unfold Run.step
    dsimp only
    split
    · exact .inr ⟨_, _, rfl, rfl, ⟨hw, rfl, hch, rfl, rfl, rfl, ho⟩⟩
    · exact .inl ⟨rfl, rfl⟩
  | collect =>
    unfold Run.step
    dsimp only
    split
    · exact .inl ⟨rfl, rfl⟩
    · split
      · cases hch with
        | cons h1 h2 => exact .inr ⟨_, _, rfl, rfl, ⟨hw, rfl, h2, rfl, rfl, addBatch_judged h1 st, ho⟩⟩
        | nil =>
          unfold Run.disconnected Run.workersDone
          dsimp only
          rw [judged_done hw]
          split
          · exact .inr ⟨_, _, rfl, rfl, ⟨hw, rfl, .nil, rfl, rfl, rfl, each_append ho (.cons ⟨rfl, .inl rfl⟩ .nil)⟩⟩
          · exact .inl ⟨rfl, rfl⟩
      · exact .inr ⟨_, _, rfl, rfl, ⟨hw, rfl, hch, rfl, rfl, rfl, ho⟩⟩

theorem judged_run (hj : Judged A B) (cfg : Config) {r r' : Run F} (h : RunJudged A B r r') (sched : List RunStep) :
    (r.run cfg sched = none ∧ r'.run cfg sched = none) ∨ ∃ q q', r.run cfg sched = some q ∧ r'.run cfg sched = some q' ∧ RunJudged A B q q' := by
  induction sched generalizing r r' with
  | nil => exact .inr ⟨r, r', rfl, rfl, h⟩
  | cons s l ih =>
    unfold Run.run
    rcases runStep_judged hj cfg h s with ⟨h2, h3⟩ | ⟨q, q', h2, h3, h4⟩
    · rw [h2, h3]; exact .inl ⟨rfl, rfl⟩
    · rw [h2, h3]; exact ih h4

theorem judged_begin {ws ws' : List (Worker F)} (h : Each (WorkerJudged A B) ws ws') : RunJudged A B (Run.init ws) (Run.init ws') :=
  ⟨h, rfl, .nil, rfl, rfl, rfl, .nil⟩

end Am
