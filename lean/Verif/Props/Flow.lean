import Verif.Spec.Flow
import Verif.Proofs.EvalCalls
import Verif.Props.Templates
import Verif.Props.Programs
/-! # C77: what a piece of script does depends only on the variables it reads; C66 for tests that set their variables before they read them -/
set_option linter.unusedSimpArgs false
set_option linter.unusedSectionVars false
namespace Am
open Spec
variable {F : Type} [Rt F]

theorem Spec.Alike.weaken {D D' : Str → Prop} {s t : St F} (h : Alike D' s t) (hd : ∀ x, D x → D' x) : Alike D s t :=
  ⟨h.requests, h.records, h.sent, h.out, fun x hx => h.vars x (hd x hx)⟩

/-- From `s` to `s'` and from `t` to `t'` the same variables were set to the same values: each has the same value in `s'` and `t'` or was left alone. -/
def SetAlike (s t s' t' : St F) : Prop := ∀ x, s'.ctx.get x = t'.ctx.get x ∨ (s'.ctx.get x = s.ctx.get x ∧ t'.ctx.get x = t.ctx.get x)

theorem SetAlike.refl (s t : St F) : SetAlike s t s t := fun _ => Or.inr ⟨rfl, rfl⟩

theorem SetAlike.trans {s t s' t' s'' t'' : St F} (h : SetAlike s t s' t') (h' : SetAlike s' t' s'' t'') : SetAlike s t s'' t'' := by
  intro x
  rcases h' x with h2 | ⟨h2, h3⟩
  · exact Or.inl h2
  · rcases h x with h1 | ⟨h1, h4⟩
    · exact Or.inl (h2.trans (h1.trans h3.symm))
    · exact Or.inr ⟨h2.trans h1, h3.trans h4⟩

/-- `m` does the same in states that agree on `D`, setting the same variables, and afterwards they agree on `D'` too if it succeeded. -/
def Flows (table : List (Str × (Str × List (Expr F)))) (D D' : Str → Prop) {α : Type} (m : M F α) : Prop :=
  ∀ s t, s.ctx.requests = table → Alike D s t → (m s).1 = (m t).1 ∧ (m s).2.ctx.requests = table ∧ Alike D (m s).2 (m t).2 ∧
    SetAlike s t (m s).2 (m t).2 ∧ ∀ a, (m s).1 = .ok a → Alike D' (m s).2 (m t).2

variable {table : List (Str × (Str × List (Expr F)))} {D D1 D' : Str → Prop}

theorem Flows.weaken {α : Type} {m : M F α} (h : Flows table D D1 m) (hd : ∀ x, D' x → D1 x) : Flows table D D' m := by
  intro s t hs ha
  obtain ⟨h1, h2, h3, hw, h4⟩ := h s t hs ha
  exact ⟨h1, h2, h3, hw, fun a hr => (h4 a hr).weaken hd⟩

theorem Flows.lift {α : Type} (r : Res α) : Flows table D D (M.lift r : M F α) := fun s t hs ha => ⟨rfl, hs, ha, .refl s t, fun _ _ => ha⟩

theorem Flows.pure {α : Type} (a : α) : Flows table D D (M.pure a : M F α) := fun s t hs ha => ⟨rfl, hs, ha, .refl s t, fun _ _ => ha⟩

theorem Flows.bind {α β : Type} {m : M F α} {f : α → M F β} (hm : Flows table D D1 m) (hd : ∀ x, D x → D1 x) (hf : ∀ a, Flows table D1 D' (f a)) :
    Flows table D D' (m >>= f) := by
  intro s t hs ha
  obtain ⟨h1, h2, h3, hw, h4⟩ := hm s t hs ha
  cases hr : m s with | mk r s' =>
  cases hr' : m t with | mk r' t' =>
  rw [hr, hr'] at h1 h3 h4 hw
  rw [hr] at h2
  dsimp only at h1 h2 h3 h4 hw
  subst h1
  cases r with
  | ok a =>
    rw [M.bind_ok hr, M.bind_ok hr']
    obtain ⟨g1, g2, g3, gw, g4⟩ := hf a s' t' h2 (h4 a rfl)
    exact ⟨g1, g2, g3.weaken hd, hw.trans gw, g4⟩
  | err e => rw [M.bind_err hr, M.bind_err hr']; exact ⟨rfl, h2, h3, hw, fun a h => nomatch h⟩
  | panic => rw [M.bind_panic hr, M.bind_panic hr']; exact ⟨rfl, h2, h3, hw, fun a h => nomatch h⟩
  | hang => rw [M.bind_hang hr, M.bind_hang hr']; exact ⟨rfl, h2, h3, hw, fun a h => nomatch h⟩

theorem Flows.out (o : Str) : Flows table D D (M.modify (F := F) fun s => { s with out := s.out ++ o }) := by
  intro s t hs ha
  have : Alike D { s with out := s.out ++ o } { t with out := t.out ++ o } := ⟨ha.requests, ha.records, ha.sent, congrArg (· ++ o) ha.out, ha.vars⟩
  exact ⟨rfl, hs, this, .refl s t, fun _ _ => this⟩

theorem Flows.native (name : Str) (vs : List (Value F)) : Flows table D D (callNative name vs) := by
  unfold callNative
  split
  · refine Flows.bind (D1 := D) (Flows.lift _) (fun _ h => h) (fun v => ?_)
    have := Flows.out (table := table) (D := D) (v.display ++ c!"\n")
    simp only [← List.append_assoc] at this
    exact Flows.bind this (fun _ h => h) (fun _ => Flows.pure _)
  · split
    · exact Flows.bind (D1 := D) (Flows.lift _) (fun _ h => h) (fun v => Flows.bind (Flows.out _) (fun _ h => h) (fun _ => Flows.pure _))
    · split
      · exact Flows.lift _
      · split
        · exact Flows.lift _
        · split <;> exact Flows.lift _

theorem fillBy_same {f g : Str → Str} {ps : List Piece} (h : ∀ x, Piece.hole x ∈ ps → f x = g x) : fillBy f ps = fillBy g ps := by
  induction ps with
  | nil => rfl
  | cons p ps ih =>
    have := ih (fun x hx => h x (List.mem_cons_of_mem _ hx))
    cases p with
    | lit c => simp only [fillBy, this]
    | hole n => simp only [fillBy, this, h n List.mem_cons_self]

theorem callRequest_same (net : Net) (call : Call F) (name message : Str) (asserts : List (Expr F)) (s t : St F)
    (hr : render s.ctx message = render t.ctx message) (hs : s.sent = t.sent) (ho : s.out = t.out) :
    ∃ r recs sent out, callRequest net call name message asserts s = (r, ⟨{ s.ctx with records := s.ctx.records ++ recs }, sent, out⟩) ∧
      callRequest net call name message asserts t = (r, ⟨{ t.ctx with records := t.ctx.records ++ recs }, sent, out⟩) := by
  obtain ⟨sc, ss, so⟩ := s
  obtain ⟨tc, ts, to⟩ := t
  dsimp only at hr hs ho
  subst hs ho
  unfold callRequest
  rw [M.bind_ok (m := M.get) (s := ⟨sc, ss, so⟩) rfl, M.bind_ok (m := M.get) (s := ⟨tc, ss, so⟩) rfl]
  dsimp only
  rw [← hr, M.bind_ok (M.modify_run _ _), M.bind_ok (M.modify_run _ _)]
  cases hs : send net ss (render sc message) with
  | err e => exact ⟨.err e, [], _, _, by rw [M.bind_err (M.lift_run _ _), List.append_nil], by rw [M.bind_err (M.lift_run _ _), List.append_nil]⟩
  | panic => exact ⟨.panic, [], _, _, by rw [M.bind_panic (M.lift_run _ _), List.append_nil], by rw [M.bind_panic (M.lift_run _ _), List.append_nil]⟩
  | hang => exact ⟨.hang, [], _, _, by rw [M.bind_hang (M.lift_run _ _), List.append_nil], by rw [M.bind_hang (M.lift_run _ _), List.append_nil]⟩
  | ok p =>
    obtain ⟨rq, rs, tm, e⟩ := p
    rw [M.bind_ok (M.lift_run _ _), M.bind_ok (M.lift_run _ _)]
    dsimp only
    cases hm : rs.toMap (F := F) with
    | err e => exact ⟨.err e, [], _, _, by rw [M.bind_err (M.lift_run _ _), List.append_nil], by rw [M.bind_err (M.lift_run _ _), List.append_nil]⟩
    | panic => exact ⟨.panic, [], _, _, by rw [M.bind_panic (M.lift_run _ _), List.append_nil], by rw [M.bind_panic (M.lift_run _ _), List.append_nil]⟩
    | hang => exact ⟨.hang, [], _, _, by rw [M.bind_hang (M.lift_run _ _), List.append_nil], by rw [M.bind_hang (M.lift_run _ _), List.append_nil]⟩
    | ok map =>
      rw [M.bind_ok (M.lift_run _ _), M.bind_ok (M.lift_run _ _)]
      cases he : evalAsserts call asserts ⟨Context.ofMap map, ss ++ [render sc message], so⟩ with | mk r s' =>
      cases r with
      | err e =>
        refine ⟨.err e, [], s'.sent, s'.out, ?_, ?_⟩ <;> rw [M.bind_err (by simp only [inLocal, he]; rfl), List.append_nil]
      | panic =>
        refine ⟨.panic, [], s'.sent, s'.out, ?_, ?_⟩ <;> rw [M.bind_panic (by simp only [inLocal, he]; rfl), List.append_nil]
      | hang =>
        refine ⟨.hang, [], s'.sent, s'.out, ?_, ?_⟩ <;> rw [M.bind_hang (by simp only [inLocal, he]; rfl), List.append_nil]
      | ok as =>
        refine ⟨.ok (.map s'.ctx.inner), [⟨name, tm, rq, rs, as, e⟩], s'.sent, s'.out, ?_, ?_⟩
        · rw [M.bind_ok (a := (as, s'.ctx.inner)) (by simp only [inLocal, he]; rfl)]; rfl
        · rw [M.bind_ok (a := (as, s'.ctx.inner)) (by simp only [inLocal, he]; rfl)]; rfl

theorem Flows.call (net : Net) (f : Str) (vs : List (Value F)) (hk : KnownCall table D f) : Flows table D D (callAt net 1 f vs) := by
  intro s t hs ha
  have ht : t.ctx.requests = table := ha.requests.symm.trans hs
  cases hr : amGet f table with
  | none =>
    rw [callAt_none net vs (show s.ctx.request f = none by rw [Context.request, hs, hr]),
      callAt_none net vs (show t.ctx.request f = none by rw [Context.request, ht, hr])]
    exact Flows.native f vs s t hs ha
  | some p =>
    obtain ⟨message, asserts⟩ := p
    rw [callAt_some net vs (show s.ctx.request f = some (message, asserts) by rw [Context.request, hs, hr]),
      callAt_some net vs (show t.ctx.request f = some (message, asserts) by rw [Context.request, ht, hr])]
    have hren : render s.ctx message = render t.ctx message := by
      obtain ⟨ps, h1, h2, h3⟩ := c27_render s.ctx message
      obtain ⟨qs, g1, _, g3⟩ := c27_render t.ctx message
      rw [h2 qs g1] at g3
      rw [h3, g3]
      refine fillBy_same (fun x hx => ?_)
      have := ha.vars x (hk message asserts ps x hr h1 hx)
      simp only [Context.get] at this
      rw [this]
    obtain ⟨r, recs, sent, out, h1, h2⟩ := callRequest_same net (callAt net 0) f message asserts s t hren ha.sent ha.out
    rw [h1, h2]
    have : Alike D ⟨{ s.ctx with records := s.ctx.records ++ recs }, sent, out⟩ ⟨{ t.ctx with records := t.ctx.records ++ recs }, sent, out⟩ :=
      ⟨ha.requests, congrArg (· ++ recs) ha.records, rfl, rfl, ha.vars⟩
    exact ⟨rfl, hs, this, .refl s t, fun _ _ => this⟩

theorem Flows.write (n : Str) (v : Value F) : Flows table D (more D [n]) (writeVar n v) := by
  intro s t hs ha
  have hv : ∀ x, more D [n] x → (s.ctx.set n v).get x = (t.ctx.set n v).get x := by
    intro x hx
    simp only [Context.get, Context.set, amGet_insert]
    split
    · rfl
    · rename_i hne
      rcases hx with hx | hx
      · exact ha.vars x hx
      · exact absurd (List.mem_singleton.1 hx).symm (fun h => hne (by simp [h]))
  have key : Alike (more D [n]) { s with ctx := s.ctx.set n v } { t with ctx := t.ctx.set n v } :=
    ⟨ha.requests, ha.records, ha.sent, ha.out, hv⟩
  refine ⟨rfl, hs, key.weaken (fun x hx => Or.inl hx), fun x => ?_, fun _ _ => key⟩
  by_cases hx : x = n
  · exact Or.inl (hv x (Or.inr (by simp [hx])))
  · have : ∀ c : Context F, (c.set n v).get x = c.get x := by
      intro c
      simp only [Context.get, Context.set, amGet_insert]
      rw [if_neg (by simpa using Ne.symm hx)]
    exact Or.inr ⟨this s.ctx, this t.ctx⟩

theorem more_self {l : List Str} : ∀ x, D x → more D l x := fun _ h => Or.inl h

mutual
theorem flows_expr (net : Net) : ∀ (e : Expr F) (D : Str → Prop), KnownIn table D e → Flows table D (more D (sure e)) (evalExpr (callAt net 1) e)
  | .int _, D, _ | .float _, D, _ | .bool _, D, _ | .str _, D, _ => by
    simp only [evalExpr, sure]; exact (Flows.pure _).weaken (fun x h => h.elim id (fun h => nomatch h))
  | .ident n, D, h => by
    simp only [KnownIn] at h
    intro s t hs ha
    simp only [evalExpr]
    rw [← ha.vars n h]
    cases s.ctx.get n with
    | some v => exact ⟨rfl, hs, ha, .refl s t, fun _ _ => ha.weaken (fun x h => h.elim id (fun h => nomatch h))⟩
    | none => exact ⟨rfl, hs, ha, .refl s t, fun _ _ => ha.weaken (fun x h => h.elim id (fun h => nomatch h))⟩
  | .arr items, D, h => by
    simp only [KnownIn] at h
    simp only [evalExpr, sure]
    exact Flows.bind (flows_list net items D h) more_self (fun _ => Flows.pure _)
  | .map pairs, D, h => by
    simp only [KnownIn] at h
    simp only [evalExpr, sure]
    exact Flows.bind (flows_pairs net pairs D [] h) more_self (fun _ => Flows.pure _)
  | .index l i, D, h => by
    simp only [KnownIn] at h
    simp only [evalExpr, sure]
    refine Flows.bind (flows_expr net l D h.1) more_self (fun v => Flows.bind (flows_expr net i _ h.2) more_self (fun w => (Flows.lift _).weaken ?_))
    intro x hx
    rcases hx with hx | hx
    · exact Or.inl (Or.inl hx)
    · exact (List.mem_append.1 hx).elim (fun h => Or.inl (Or.inr h)) Or.inr
  | .field l n, D, h => by
    simp only [KnownIn] at h
    simp only [evalExpr, sure]
    exact Flows.bind (flows_expr net l D h) more_self (fun _ => Flows.lift _)
  | .letE n v, D, h => by
    simp only [KnownIn] at h
    simp only [evalExpr, sure]
    refine Flows.bind (flows_expr net v D h) more_self (fun w => Flows.bind (Flows.write n w) more_self (fun _ => (Flows.pure _).weaken ?_))
    intro x hx
    rcases hx with hx | hx
    · exact Or.inl (Or.inl hx)
    · rcases List.mem_cons.1 hx with rfl | hx
      · exact Or.inr List.mem_cons_self
      · exact Or.inl (Or.inr hx)
  | .unary t r, D, h => by
    simp only [KnownIn] at h
    simp only [evalExpr, sure]
    exact Flows.bind (flows_expr net r D h) more_self (fun _ => Flows.lift _)
  | .binary t l r, D, h => by
    simp only [KnownIn] at h
    simp only [evalExpr, sure]
    cases ho : binaryOp (F := F) t.kind with
    | some op =>
      have : ¬ (t.kind = .La ∨ t.kind = .Lo) := by
        rintro (h | h) <;> rw [h] at ho <;> cases ho
      rw [if_neg this]
      refine Flows.bind (flows_expr net l D h.1) more_self (fun v => Flows.bind (flows_expr net r _ h.2) more_self (fun w => (Flows.lift _).weaken ?_))
      intro x hx
      rcases hx with hx | hx
      · exact Or.inl (Or.inl hx)
      · exact (List.mem_append.1 hx).elim (fun h => Or.inl (Or.inr h)) Or.inr
    | none =>
      dsimp only
      by_cases hk : t.kind = .Lo
      · rw [if_pos hk, if_pos (Or.inr hk)]
        refine Flows.bind (flows_expr net l D h.1) more_self (fun v => ?_)
        split
        · exact (flows_expr net r _ h.2).weaken (fun x hx => Or.inl hx)
        · exact Flows.pure _
      · rw [if_neg hk]
        by_cases hk : t.kind = .La
        · rw [if_pos hk, if_pos (Or.inl hk)]
          refine Flows.bind (flows_expr net l D h.1) more_self (fun v => ?_)
          split
          · exact Flows.pure _
          · exact (flows_expr net r _ h.2).weaken (fun x hx => Or.inl hx)
        · rw [if_neg hk]
          intro s t hs ha
          exact ⟨rfl, hs, ha, .refl s t, fun a h => nomatch h⟩
  | .paren v, D, h => by
    simp only [KnownIn] at h
    simp only [evalExpr, sure]
    exact flows_expr net v D h
  | .ifE c t e, D, h => by
    simp only [KnownIn] at h
    simp only [evalExpr, sure]
    refine Flows.bind (flows_expr net c D h.1) more_self (fun v => ?_)
    split
    · refine (flows_block net e _ .null h.2.2).weaken ?_
      intro x hx
      rcases hx with hx | hx
      · exact Or.inl (Or.inl hx)
      · rcases List.mem_append.1 hx with hx | hx
        · exact Or.inl (Or.inr hx)
        · exact Or.inr (by simpa using (List.mem_filter.1 hx).2)
    · refine (flows_block net t _ .null h.2.1).weaken ?_
      intro x hx
      rcases hx with hx | hx
      · exact Or.inl (Or.inl hx)
      · rcases List.mem_append.1 hx with hx | hx
        · exact Or.inl (Or.inr hx)
        · exact Or.inr (List.mem_filter.1 hx).1
  | .call f args, D, h => by
    simp only [KnownIn] at h
    simp only [evalExpr, sure]
    exact Flows.bind (flows_list net args D h.1) more_self (fun vs => Flows.call net f vs h.2)
termination_by structural e => e
theorem flows_list (net : Net) : ∀ (l : List (Expr F)) (D : Str → Prop), KnownList table D l → Flows table D (more D (sureList l)) (evalList (callAt net 1) l)
  | [], D, _ => by
    simp only [evalList, sureList]; exact (Flows.pure _).weaken (fun x h => h.elim id (fun h => nomatch h))
  | e :: l, D, h => by
    simp only [KnownList] at h
    simp only [evalList, sureList]
    refine Flows.bind (flows_expr net e D h.1) more_self (fun v => Flows.bind (flows_list net l _ h.2) more_self (fun w => (Flows.pure _).weaken ?_))
    intro x hx
    rcases hx with hx | hx
    · exact Or.inl (Or.inl hx)
    · exact (List.mem_append.1 hx).elim (fun h => Or.inl (Or.inr h)) Or.inr
termination_by structural l => l
theorem flows_pairs (net : Net) : ∀ (l : List (Expr F × Expr F)) (D : Str → Prop) (acc : List (Str × Value F)), KnownPairs table D l →
    Flows table D (more D (surePairs l)) (evalPairs (callAt net 1) acc l)
  | [], D, acc, _ => by
    simp only [evalPairs, surePairs]; exact (Flows.pure _).weaken (fun x h => h.elim id (fun h => nomatch h))
  | (k, v) :: l, D, acc, h => by
    simp only [KnownPairs] at h
    simp only [evalPairs, surePairs]
    refine Flows.bind (flows_expr net k D h.1) more_self (fun a => Flows.bind (flows_expr net v _ h.2.1) more_self (fun b =>
      (flows_pairs net l _ _ h.2.2).weaken ?_))
    intro x hx
    rcases hx with hx | hx
    · exact Or.inl (Or.inl (Or.inl hx))
    · rcases List.mem_append.1 hx with hx | hx
      · exact Or.inl (Or.inl (Or.inr hx))
      · exact (List.mem_append.1 hx).elim (fun h => Or.inl (Or.inr h)) Or.inr
termination_by structural l => l
theorem flows_block (net : Net) : ∀ (l : List (Expr F)) (D : Str → Prop) (acc : Value F), KnownList table D l →
    Flows table D (more D (sureList l)) (evalBlock (callAt net 1) acc l)
  | [], D, acc, _ => by
    simp only [evalBlock, sureList]; exact (Flows.pure _).weaken (fun x h => h.elim id (fun h => nomatch h))
  | e :: l, D, acc, h => by
    simp only [KnownList] at h
    simp only [evalBlock, sureList]
    refine Flows.bind (flows_expr net e D h.1) more_self (fun v => (flows_block net l _ v h.2).weaken ?_)
    intro x hx
    rcases hx with hx | hx
    · exact Or.inl (Or.inl hx)
    · exact (List.mem_append.1 hx).elim (fun h => Or.inl (Or.inr h)) Or.inr
termination_by structural l => l
end

/-- C77: a block that reads only variables of `D` and those it has set before does the same in every two states that agree on `D`: the same
outcome, messages, prints and records; afterwards the states still agree on `D`, and on what the block certainly set if it succeeded. -/
theorem c77_block (net : Net) (block : List (Expr F)) (D : Str → Prop) (s t : St F) (ha : Alike D s t) (hk : KnownList s.ctx.requests D block) :
    (runBlock net block s).1 = (runBlock net block t).1 ∧ Alike D (runBlock net block s).2 (runBlock net block t).2 ∧
      ∀ v, (runBlock net block s).1 = .ok v → Alike (more D (sureList block)) (runBlock net block s).2 (runBlock net block t).2 := by
  obtain ⟨h1, _, h3, _, h4⟩ := flows_block net block D .null hk s t rfl ha
  exact ⟨h1, h3, h4⟩

/-- C77: and it sets the same variables to the same values: every variable has the same value afterwards or was left alone in both. -/
theorem c77_wrote (net : Net) (block : List (Expr F)) (D : Str → Prop) (s t : St F) (ha : Alike D s t) (hk : KnownList s.ctx.requests D block) (x : Str) :
    (runBlock net block s).2.ctx.get x = (runBlock net block t).2.ctx.get x ∨
      ((runBlock net block s).2.ctx.get x = s.ctx.get x ∧ (runBlock net block t).2.ctx.get x = t.ctx.get x) :=
  (flows_block net block D .null hk s t rfl ha).2.2.2.1 x

/-- Concrete case for `c77_block`: a block that logs in, keeps the token, and calls a request whose template uses it, next to a variable set before. -/
example : KnownList [(c!"login", (c!"POST http://h/{user}", [])), (c!"profile", (c!"GET http://h/{ token }", ([] : List (Expr F))))]
    (fun x => x = c!"user")
    [.letE c!"token" (.field (.call c!"login" []) c!"body"), .call c!"profile" [], .ifE (.bool true) [.ident c!"token"] [.ident c!"user"]] := by
  have hl : ∀ ps x, Pieces c!"POST http://h/{user}" ps → Piece.hole x ∈ ps → x = c!"user" := by
    intro ps x hp hx
    obtain ⟨qs, h1, h2, _, _⟩ := findAll_pieces (c!"POST http://h/{user}").length 0 c!"POST http://h/{user}" (Nat.le_refl _)
    have : Pieces c!"POST http://h/{user}" ((c!"POST http://h/").map .lit ++ [.hole c!"user"]) := by
      simp only [List.map_cons, List.map_nil, List.cons_append, List.nil_append]
      repeat (first | refine .lit (matchAt_none.1 (by decide +kernel)) ?_)
      exact .hole (h := c!"{user}") (rest := []) ⟨[], [], 'u', c!"ser", by decide, by decide, by decide, by decide, by decide, by decide⟩ .nil
    rw [pieces_unique hp this] at hx
    simpa using hx
  have hp : ∀ ps x, Pieces c!"GET http://h/{ token }" ps → Piece.hole x ∈ ps → x = c!"token" := by
    intro ps x hp hx
    have : Pieces c!"GET http://h/{ token }" ((c!"GET http://h/").map .lit ++ [.hole c!"token"]) := by
      simp only [List.map_cons, List.map_nil, List.cons_append, List.nil_append]
      repeat (first | refine .lit (matchAt_none.1 (by decide +kernel)) ?_)
      exact .hole (h := c!"{ token }") (rest := []) ⟨c!" ", c!" ", 't', c!"oken", by decide, by decide, by decide, by decide, by decide, by decide⟩ .nil
    rw [pieces_unique hp this] at hx
    simpa using hx
  simp only [KnownList, KnownIn, sure, sureList, List.append_nil, and_true, true_and]
  refine ⟨?_, ?_, ?_, ?_⟩
  · intro message asserts ps x hr hps hx
    cases hr
    exact Or.inl (hl ps x hps hx)
  · intro message asserts ps x hr hps hx
    cases hr
    exact Or.inl (Or.inr (by simp [hp ps x hps hx]))
  · exact Or.inl (Or.inl (Or.inr (by simp)))
  · exact Or.inl (Or.inl (Or.inl rfl))

/-! ## C66 -/

/-- C66, partial: for a test that sets its own variables before it reads them, iterations do not influence each other: whatever iterations came before,
the next one does what it would do in the context the first one starts in — same outcome, messages, prints and records. Missing: tests that read a
variable before they set it, which find the value left by the iteration before (`c66_false`). -/
theorem c66_next_partial {test : List (Expr F)} {base : Context F} {nets : List Net} {hist : List (Str × List Record)} {c : Context F}
    (h : Iterations test base nets hist c) (hb : base.records = []) (hk : KnownList base.requests (fun x => x ∉ letsList test) test) (net : Net) :
    (runBlock net test ⟨c, [], []⟩).1 = (runBlock net test ⟨base, [], []⟩).1 ∧
      (runBlock net test ⟨c, [], []⟩).2.sent = (runBlock net test ⟨base, [], []⟩).2.sent ∧
      (runBlock net test ⟨c, [], []⟩).2.out = (runBlock net test ⟨base, [], []⟩).2.out ∧
      (runBlock net test ⟨c, [], []⟩).2.ctx.records = (runBlock net test ⟨base, [], []⟩).2.ctx.records := by
  have hc : c.records = [] ∧ c.requests = base.requests := by
    clear hk
    induction h with
    | nil => exact ⟨hb, rfl⟩
    | @snoc nets hist c net v s h hr ih =>
      have hreq := c19_requests_fixed net test ⟨c, [], []⟩
      rw [hr] at hreq
      exact ⟨rfl, hreq.trans ih.2⟩
  have ha : Alike (fun x => x ∉ letsList test) ⟨c, [], []⟩ ⟨base, [], []⟩ :=
    ⟨hc.2, hc.1.trans hb.symm, rfl, rfl, fun x hx => c66_variable h x hx⟩
  obtain ⟨h1, h2, _⟩ := c77_block net test _ _ _ ha (by rw [show (⟨c, [], []⟩ : St F).ctx.requests = base.requests from hc.2]; exact hk)
  exact ⟨h1, h2.sent, h2.out, h2.records⟩

/-- C66, partial (see `c66_next_partial`): what the iterations of such a test print and record is, iteration by iteration, what the test prints and records
when run once, in the context of the first iteration, on the network of that iteration. -/
theorem c66_each_partial {test : List (Expr F)} {base : Context F} {nets : List Net} {hist : List (Str × List Record)} {c : Context F}
    (h : Iterations test base nets hist c) (hb : base.records = []) (hk : KnownList base.requests (fun x => x ∉ letsList test) test) :
    hist = nets.map (fun net => ((runBlock net test ⟨base, [], []⟩).2.out, (runBlock net test ⟨base, [], []⟩).2.ctx.records)) := by
  induction h with
  | nil => rfl
  | @snoc nets hist c net v s h hr ih =>
    obtain ⟨_, _, h3, h4⟩ := c66_next_partial h hb hk net
    rw [hr] at h3 h4
    dsimp only at h3 h4
    rw [List.map_append, ih, h3, h4]
    rfl

/-- Concrete case for `c66_next_partial` and `c66_each_partial`: two iterations of a test with a `let`. -/
example (net : Net) : KnownList ([] : List (Str × (Str × List (Expr F)))) (fun x => x ∉ letsList (F := F) [.letE c!"n" (.ident c!"m"), .call c!"println" [.str c!"{n}", .ident c!"n"]])
      [.letE c!"n" (.ident c!"m"), .call c!"println" [.str c!"{n}", .ident c!"n"]] ∧
    ∃ c, Iterations (F := F) [.letE c!"n" (.ident c!"m"), .call c!"println" [.str c!"{n}", .ident c!"n"]] ⟨[(c!"m", .int 4)], [], []⟩ [net, net]
      [(c!"4\n", []), (c!"4\n", [])] c := by
  constructor
  · simp only [KnownList, KnownIn, sure, sureList, letsList, lets, KnownCall, amGet]
    simp [more]
  · exact ⟨_, .snoc (nets := [net]) (hist := [(c!"4\n", [])])
      (.snoc (nets := []) (hist := []) .nil (v := .null) (s := ⟨⟨[(c!"m", .int 4), (c!"n", .int 4)], [], []⟩, [], c!"4\n"⟩) rfl)
      (v := .null) (s := ⟨⟨[(c!"m", .int 4), (c!"n", .int 4)], [], []⟩, [], c!"4\n"⟩) rfl⟩

end Am
