import Verif.Spec.Laid
import Verif.Props.Programs
import Verif.Props.Injection
import Verif.Props.Rearrange
import Verif.Proofs.Parens
/-! # Runs of scripts with changed messages (C117, C118) -/
set_option linter.unusedSimpArgs false
set_option linter.unusedSectionVars false
namespace Am
open Spec
variable {F : Type} [Rt F] {R : Str → Str → Prop} {ok : List (Str × Value F) → Str → Prop}

/-- Messages related by `R` are the same request, whenever the variables suit the first. -/
def Faithful (R : Str → Str → Prop) (ok : List (Str × Value F) → Str → Prop) : Prop :=
  ∀ (mp : List Part → Option (List UInt8)) (ctx ctx' : Context F) (m m' : Str), ctx.inner = ctx'.inner → R m m' → ok ctx.inner m →
    SameRequest mp (render ctx m) (render ctx' m')

/-! ## Runs -/

/-- Held, or the same end in states that differ only in layout. -/
def HeldOr (R : Str → Str → Prop) (net : Net) {α : Type} (_ : Nat) (m m' : M F α) : Prop :=
  ∀ s t, SameButMessages R net.multipart s t → (m s).1 = .hang ∨ ((m s).1 = (m' t).1 ∧ SameButMessages R net.multipart (m s).2 (m' t).2)

theorem heldOr_lift (net : Net) {α : Type} (n : Nat) (r : Res α) : HeldOr (F := F) R net n (M.lift r) (M.lift r) := fun _ _ h => .inr ⟨rfl, h⟩

theorem heldOr_bind (net : Net) {α β : Type} {m n : Nat} {x y : M F α} {f g : α → M F β} (h : HeldOr R net m x y) (h' : ∀ a, HeldOr R net n (f a) (g a)) :
    HeldOr R net (m + n) (x >>= f) (y >>= g) := by
  intro s t hs
  have h1 := h s t hs
  show (M.bind x f s).1 = .hang ∨ ((M.bind x f s).1 = (M.bind y g t).1 ∧ SameButMessages R net.multipart (M.bind x f s).2 (M.bind y g t).2)
  unfold M.bind
  rcases hx : x s with ⟨r, s1⟩
  rcases hy : y t with ⟨r', t1⟩
  rw [hx, hy] at h1
  rcases h1 with h1 | ⟨h1, h2⟩
  · dsimp only at h1
    subst h1
    exact .inl rfl
  · dsimp only at h1 h2
    subst h1
    cases r with
    | ok a => exact h' a s1 t1 h2
    | err e => exact .inr ⟨rfl, h2⟩
    | panic => exact .inr ⟨rfl, h2⟩
    | hang => exact .inl rfl

theorem heldOr_closed (net : Net) : Closed (F := F) (HeldOr R net) where
  pure a := fun _ _ h => .inr ⟨rfl, h⟩
  bind := heldOr_bind net
  mono := fun _ h => h
  ident n := by
    intro s t h
    have hg : s.ctx.get n = t.ctx.get n := by unfold Context.get; rw [h.variables]
    unfold readVar
    rw [hg]
    split <;> exact .inr ⟨rfl, h⟩
  lift _ _ := heldOr_lift net 0 _

theorem heldOr_write (net : Net) (n : Str) (v : Value F) : HeldOr R net 0 (writeVar n v) (writeVar n v) := by
  intro s t ⟨h1, h2, h3, h4, h5⟩
  exact .inr ⟨rfl, congrArg (amInsert n v) h1, h2, h3, h4, h5⟩

theorem heldOr_say (net : Net) (text : Str) :
    HeldOr (F := F) R net 0 (M.modify fun s => { s with out := s.out ++ text }) (M.modify fun s => { s with out := s.out ++ text }) := by
  intro s t ⟨h1, h2, h3, h4, h5⟩
  exact .inr ⟨rfl, h1, h2, h3, h4, congrArg (· ++ text) h5⟩

theorem heldOr_native (net : Net) (name : Str) (args : List (Value F)) : HeldOr R net 1 (callNative name args) (callNative name args) := by
  unfold callNative
  simp only [List.append_assoc]
  split
  · exact heldOr_bind net (m := 1) (n := 0) (heldOr_lift net 1 _) fun v => heldOr_bind net (m := 0) (n := 0) (heldOr_say net _) fun _ => (heldOr_closed net).pure _
  · split
    · exact heldOr_bind net (m := 1) (n := 0) (heldOr_lift net 1 _) fun v => heldOr_bind net (m := 0) (n := 0) (heldOr_say net _) fun _ => (heldOr_closed net).pure _
    · repeat (first | exact heldOr_lift net 1 _ | split)

theorem changed_get {l l' : List (Str × (Str × List (Expr F)))} (h : Each (ChangedDefinition R) l l') (n : Str) :
    (amGet n l = none ∧ amGet n l' = none) ∨ ∃ m m' as, amGet n l = some (m, as) ∧ amGet n l' = some (m', as) ∧ R m m' := by
  induction h with
  | nil => exact .inl ⟨rfl, rfl⟩
  | @cons p p' l l' hp _ ih =>
    obtain ⟨k, m, as⟩ := p
    obtain ⟨k', m', as'⟩ := p'
    obtain ⟨e1, e2, e3⟩ := hp
    dsimp only at e1 e2 e3
    subst e1 e3
    simp only [amGet]
    by_cases hn : k = n
    · rw [if_pos hn, if_pos hn]
      exact .inr ⟨m, m', as, rfl, rfl, e2⟩
    · rw [if_neg hn, if_neg hn]
      exact ih

theorem heldOr_none (net : Net) (name : Str) (args : List (Value F)) : HeldOr R net 1 (callAt net 0 name args) (callAt net 0 name args) := by
  intro s t hs
  have hd := changed_get hs.requests name
  unfold callAt Context.request
  rcases hd with ⟨h1, h2⟩ | ⟨m, m', as, h1, h2, _⟩
  · rw [h1, h2]; exact heldOr_native net name args s t hs
  · rw [h1]; exact .inl rfl

theorem heldOr_orElse (net : Net) {n : Nat} {m m' : M F (Value F)} (v : Value F) (h : HeldOr R net n m m') : HeldOr R net n (m.orElse v) (m'.orElse v) := by
  intro s t hs
  have h1 := h s t hs
  unfold M.orElse
  rcases hx : m s with ⟨r, s1⟩
  rcases hy : m' t with ⟨r', t1⟩
  rw [hx, hy] at h1
  rcases h1 with h1 | ⟨h1, h2⟩
  · dsimp only at h1; subst h1; exact .inl rfl
  · dsimp only at h1 h2
    subst h1
    cases r <;> exact .inr ⟨rfl, h2⟩

theorem heldOr_request (hR : Faithful (F := F) R ok) (net : Net) (hnet : SeesRequests net) (name : Str) {m m' : Str} (h : R m m') (as : List (Expr F)) {s t : St F}
    (hs : SameButMessages R net.multipart s t) (hv : ok s.ctx.inner m) :
    (callRequest net (callAt net 0) name m as s).1 = .hang ∨ ((callRequest net (callAt net 0) name m as s).1 = (callRequest net (callAt net 0) name m' as t).1 ∧
      SameButMessages R net.multipart (callRequest net (callAt net 0) name m as s).2 (callRequest net (callAt net 0) name m' as t).2) := by
  have hr := hR net.multipart s.ctx t.ctx m m' hs.variables h hv
  rw [callRequest_exchange, callRequest_exchange]
  generalize render s.ctx m = text at *
  generalize render t.ctx m' = text' at *
  have hsend : send net s.sent text = send net t.sent text' := by
    unfold send
    rw [hnet _ _ _ _ hs.sent hr]
    have : Request.ofStr net.multipart text = Request.ofStr net.multipart text' := hr
    rw [this]
  generalize hb : s.sent = before at hsend
  generalize hb' : t.sent = before' at hsend
  clear hb hb' hv
  revert s t
  show HeldOr R net (0 + 0) _ _
  unfold exchangeOf
  rw [hsend]
  refine heldOr_bind net (m := 0) (n := 0) (fun s t ⟨h1, h2, h3, h4, h5⟩ => .inr ⟨rfl, h1, h2, h3, each_snoc h4 hr, h5⟩) fun _ => ?_
  refine heldOr_bind net (m := 0) (n := 0) (heldOr_lift net 0 _) fun p => ?_
  refine heldOr_bind net (m := 0) (n := 0) (heldOr_lift net 0 _) fun map => ?_
  refine heldOr_bind net (m := 0) (n := 0) ?_ fun q => ?_
  · intro s t ⟨h1, h2, h3, h4, h5⟩
    have hc := evalAsserts_closed (heldOr_closed (R := R) net) (heldOr_none net) (fun v h => heldOr_orElse net v h) as (fun n _ v => heldOr_write net n v) (fun _ _ => .inl fun _ => heldOr_lift net 0 _)
      { s with ctx := Context.ofMap map } { t with ctx := Context.ofMap map } ⟨rfl, .nil, rfl, h4, h5⟩
    unfold inLocal
    rcases hx : evalAsserts (callAt net 0) as { s with ctx := Context.ofMap map } with ⟨x, u⟩
    rcases hy : evalAsserts (callAt net 0) as { t with ctx := Context.ofMap map } with ⟨y, v⟩
    rw [hx, hy] at hc
    rcases hc with hc | ⟨hc, k1, k2, k3, k4, k5⟩
    · dsimp only at hc; subst hc; exact .inl rfl
    · dsimp only at hc k1 k2 k3 k4 k5
      subst hc
      cases x with
      | ok a => exact .inr ⟨congrArg (fun i => Res.ok (a, i)) k1, h1, h2, h3, k4, k5⟩
      | err e => exact .inr ⟨rfl, h1, h2, h3, k4, k5⟩
      | panic => exact .inr ⟨rfl, h1, h2, h3, k4, k5⟩
      | hang => exact .inl rfl
  · exact heldOr_bind net (m := 0) (n := 0) (fun s t ⟨h1, h2, h3, h4, h5⟩ => .inr ⟨rfl, h1, h2, congrArg (· ++ [_]) h3, h4, h5⟩) fun _ => (heldOr_closed net).pure _

theorem heldOr_careful (hR : Faithful (F := F) R ok) (net : Net) (hnet : SeesRequests net) (name : Str) (args : List (Value F)) :
    HeldOr R net 1 (careful ok (callAt net 1) name args) (callAt net 1 name args) := by
  intro s t hs
  have hd := changed_get hs.requests name
  unfold careful
  rcases hd with ⟨h1, h2⟩ | ⟨m, m', as, h1, h2, h3⟩
  · unfold callAt Context.request
    rw [h1, h2]
    exact heldOr_native net name args s t hs
  · have e1 : s.ctx.request name = some (m, as) := h1
    rw [e1]
    dsimp only
    by_cases hv : ok s.ctx.inner m
    · rw [if_pos hv]
      unfold callAt Context.request
      rw [h1, h2]
      exact heldOr_request hR net hnet name h3 as hs hv
    · rw [if_neg hv]; exact .inl rfl

/-- Held, or exactly the same. -/
def HeldOrSame {α : Type} (_ : Nat) (m m' : M F α) : Prop := ∀ s, (m s).1 = .hang ∨ m s = m' s

theorem heldOrSame_closed : Closed (F := F) HeldOrSame where
  pure _ := fun _ => .inr rfl
  bind := by
    intro α β m n x y f g h h' s
    show (M.bind x f s).1 = .hang ∨ M.bind x f s = M.bind y g s
    have h1 := h s
    unfold M.bind
    rcases hx : x s with ⟨r, s1⟩
    rcases hy : y s with ⟨r', t1⟩
    rw [hx, hy] at h1
    rcases h1 with h1 | h1
    · dsimp only at h1; subst h1; exact .inl rfl
    · cases h1
      cases r with
      | ok a => exact h' a s1
      | err e => exact .inr rfl
      | panic => exact .inr rfl
      | hang => exact .inl rfl
  mono := fun _ h => h
  ident n := fun _ => .inr rfl
  lift _ _ := fun _ => .inr rfl

theorem careful_same (net : Net) (es : List (Expr F)) (s : St F) (h : RunKeeps ok net es s) : evalBlock (careful ok (callAt net 1)) .null es s = runBlock net es s := by
  have := evalBlock_closed heldOrSame_closed (call := careful ok (callAt net 1)) (call' := callAt net 1) (fun name args s => by
    unfold careful
    cases hr : s.ctx.request name with
    | none => exact .inr rfl
    | some p =>
      dsimp only
      by_cases hv : ok s.ctx.inner p.1
      · rw [if_pos hv]; exact .inr rfl
      · rw [if_neg hv]; exact .inl rfl) es .null (fun _ _ _ _ => .inr rfl) (fun _ _ => .inl fun _ _ => .inr rfl) s
  rcases this with h1 | h1
  · exact absurd h1 h
  · exact h1

theorem changed_block (hR : Faithful (F := F) R ok) (net : Net) (hnet : SeesRequests net) (es : List (Expr F)) (s s' : St F) (hs : SameButMessages R net.multipart s s')
    (h : RunKeeps ok net es s) :
    (runBlock net es s).1 = (runBlock net es s').1 ∧ SameButMessages R net.multipart (runBlock net es s).2 (runBlock net es s').2 := by
  have := evalBlock_closed (heldOr_closed (R := R) net) (heldOr_careful hR net hnet) es .null (fun n _ v => heldOr_write net n v) (fun _ _ => .inl fun _ => heldOr_lift net 0 _) s s' hs
  rcases this with h1 | h1
  · exact absurd h1 h
  · rw [careful_same net es s h] at h1
    exact h1

/-! ## Texts -/

theorem changed_insert {l l' : List (Str × (Str × List (Expr F)))} (h : Each (ChangedDefinition R) l l') (n : Str) {m m' : Str} (as : List (Expr F))
    (hm : R m m') : Each (ChangedDefinition R) (amInsert n (m, as) l) (amInsert n (m', as) l') := by
  induction h with
  | nil => exact .cons ⟨rfl, hm, rfl⟩ .nil
  | @cons p p' l l' hp hl ih =>
    obtain ⟨k, m1, as1⟩ := p
    obtain ⟨k', m1', as1'⟩ := p'
    obtain ⟨e1, e2, e3⟩ := hp
    dsimp only at e1 e2 e3
    subst e1 e3
    simp only [amInsert]
    by_cases hn : k = n
    · rw [if_pos hn, if_pos hn]; exact .cons ⟨rfl, hm, rfl⟩ hl
    · rw [if_neg hn, if_neg hn]; exact .cons ⟨rfl, e2, rfl⟩ ih

theorem changed_extend {l l' : List (Str × (Str × List (Expr F)))} (h : Each (ChangedDefinition R) l l')
    {m m' : List (Str × (Str × List (Expr F)))} (hm : Each (ChangedDefinition R) m m') : Each (ChangedDefinition R) (amExtend l m) (amExtend l' m') := by
  induction hm generalizing l l' with
  | nil => exact h
  | @cons p p' m m' hp _ ih =>
    obtain ⟨k, t, as⟩ := p
    obtain ⟨k', t', as'⟩ := p'
    obtain ⟨e1, e2, e3⟩ := hp
    dsimp only at e1 e2 e3
    subst e1 e3
    exact ih (changed_insert h k as e2)

theorem changedItems_source {is is' : List (Item F)} (h : Each (ChangedItem R) is is') : ∀ {src src' : Source F},
    src.exprs = src'.exprs → Each (ChangedDefinition R) src.requests src'.requests → src.tests = src'.tests →
    (is.foldl addItem src).exprs = (is'.foldl addItem src').exprs ∧ Each (ChangedDefinition R) (is.foldl addItem src).requests (is'.foldl addItem src').requests ∧
      (is.foldl addItem src).tests = (is'.foldl addItem src').tests := by
  induction h with
  | nil => intro src src' h1 h2 h3; exact ⟨h1, h2, h3⟩
  | cons hi _ ih =>
    intro src src' h1 h2 h3
    rw [List.foldl_cons, List.foldl_cons]
    cases hi with
    | expr e => exact ih (congrArg (· ++ [e]) h1) h2 h3
    | request n m m' as hm => exact ih h1 (changed_insert h2 n as hm) h3
    | test n b => exact ih h1 h2 (congrArg (amInsert n b) h3)

theorem changed_text (hR : Faithful (F := F) R ok) (net : Net) (hnet : SeesRequests net) (text text' : Str) (is is' : List (Item F)) (h1 : Accepted text is) (h2 : Accepted text' is')
    (h : Each (ChangedItem R) is is') (s s' : St F) (hs : SameButMessages R net.multipart s s')
    (hv : RunKeeps ok net (is.foldl addItem ⟨[], [], []⟩).exprs { s with ctx := s.ctx.extend (is.foldl addItem ⟨[], [], []⟩).requests }) :
    (evalText net text s).1 = (evalText net text' s').1 ∧ SameButMessages R net.multipart (evalText net text s).2 (evalText net text' s').2 := by
  obtain ⟨a, b, _⟩ := changedItems_source h (src := ⟨[], [], []⟩) (src' := ⟨[], [], []⟩) rfl .nil rfl
  have p1 := accepted_items h1
  have p2 := accepted_items h2
  generalize is.foldl addItem ⟨[], [], []⟩ = src at *
  generalize is'.foldl addItem ⟨[], [], []⟩ = src' at *
  have hb := changed_block hR net hnet src.exprs { s with ctx := s.ctx.extend src.requests } { s' with ctx := s'.ctx.extend src'.requests }
    ⟨hs.variables, changed_extend hs.requests b, hs.records, hs.sent, hs.out⟩ hv
  have e1 : evalText net text s = (match runBlock net src.exprs { s with ctx := s.ctx.extend src.requests } with
      | (.ok v, s) => sayLine v.display s
      | (.err e, s) => sayLine e s
      | (.panic, s) => (.panic, s)
      | (.hang, s) => (.hang, s)) := by unfold evalText; rw [p1]; rfl
  have e2 : evalText net text' s' = (match runBlock net src.exprs { s' with ctx := s'.ctx.extend src'.requests } with
      | (.ok v, s) => sayLine v.display s
      | (.err e, s) => sayLine e s
      | (.panic, s) => (.panic, s)
      | (.hang, s) => (.hang, s)) := by unfold evalText; rw [p2, a]; rfl
  rw [e1, e2]
  rcases hy : runBlock net src.exprs { s with ctx := s.ctx.extend src.requests } with ⟨r, t⟩
  rcases hz : runBlock net src.exprs { s' with ctx := s'.ctx.extend src'.requests } with ⟨r', t'⟩
  rw [hy, hz] at hb
  obtain ⟨hb1, k1, k2, k3, k4, k5⟩ := hb
  dsimp only at hb1 k1 k2 k3 k4 k5
  subst hb1
  cases r with
  | ok v => exact ⟨rfl, k1, k2, k3, k4, congrArg (· ++ v.display ++ c!"\n") k5⟩
  | err e => exact ⟨rfl, k1, k2, k3, k4, congrArg (· ++ e ++ c!"\n") k5⟩
  | panic => exact ⟨rfl, k1, k2, k3, k4, k5⟩
  | hang => exact ⟨rfl, k1, k2, k3, k4, k5⟩

theorem changed_tests (text text' : Str) (is is' : List (Item F)) (h1 : Accepted text is) (h2 : Accepted text' is') (h : Each (ChangedItem R) is is') :
    ∃ src src', parse (F := F) text = .ok src ∧ parse (F := F) text' = .ok src' ∧ src.tests = src'.tests ∧ src.exprs = src'.exprs ∧
      Each (ChangedDefinition R) src.requests src'.requests := by
  obtain ⟨a, b, c⟩ := changedItems_source h (src := ⟨[], [], []⟩) (src' := ⟨[], [], []⟩) rfl .nil rfl
  exact ⟨_, _, accepted_items h1, accepted_items h2, c, a, b⟩

end Am
