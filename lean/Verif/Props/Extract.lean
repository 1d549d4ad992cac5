import Verif.Spec.Extract
import Verif.Props.Swap
/-! # C112: giving a name to an expression that occurs again changes nothing -/
set_option linter.unusedSimpArgs false
set_option linter.unusedSectionVars false
namespace Am
open Spec
variable {F : Type} [Rt F] {table : List (Str × (Str × List (Expr F)))} {D : Str → Prop} {x : Str} {e : Expr F} {v : Value F} {s0 : St F}

/-- With the requests of `table`, `x` changes nothing at all. -/
def Still (table : List (Str × (Str × List (Expr F)))) {α : Type} (_ : Nat) (x _y : M F α) : Prop :=
  ∀ inner, ∃ r, ∀ recs sent out, x ⟨⟨inner, table, recs⟩, sent, out⟩ = (r, ⟨⟨inner, table, recs⟩, sent, out⟩)

theorem still_lift {α : Type} (n : Nat) (r : Res α) : Still table n (M.lift r : M F α) (M.lift r) := fun _ => ⟨r, fun _ _ _ => rfl⟩

theorem still_closed : Closed (F := F) (fun {_} n x y => Still table n x y) where
  pure a _ := ⟨.ok a, fun _ _ _ => rfl⟩
  bind {α β m n x y f g} hx hf inner := by
    obtain ⟨r, h1⟩ := hx inner
    cases r with
    | ok a =>
      obtain ⟨r2, h2⟩ := hf a inner
      exact ⟨r2, fun recs sent out => by rw [M.bind_ok (h1 recs sent out), h2]⟩
    | err e => exact ⟨.err e, fun recs sent out => by rw [M.bind_err (h1 recs sent out)]⟩
    | panic => exact ⟨.panic, fun recs sent out => by rw [M.bind_panic (h1 recs sent out)]⟩
    | hang => exact ⟨.hang, fun recs sent out => by rw [M.bind_hang (h1 recs sent out)]⟩
  mono _ h := h
  ident n inner := by
    cases h : amGet n inner with
    | some v => exact ⟨.ok v, fun recs sent out => by simp only [readVar, Context.get, h]⟩
    | none => exact ⟨_, fun recs sent out => by simp only [readVar, Context.get, h]; rfl⟩
  lift _ _ := still_lift 0 _

theorem still_call (net : Net) (f : Str) (vs : List (Value F)) (h : amGet f table = none ∧ f ≠ c!"print" ∧ f ≠ c!"println") :
    Still table 1 (callAt net 1 f vs) (callAt net 1 f vs) := by
  intro inner
  have hn : ∀ recs sent out, callAt net 1 f vs ⟨⟨inner, table, recs⟩, sent, out⟩ = callNative f vs ⟨⟨inner, table, recs⟩, sent, out⟩ :=
    fun recs sent out => callAt_none net vs (show (⟨inner, table, recs⟩ : Context F).request f = none from h.1)
  have hl : ∃ r, (callNative f vs : M F (Value F)) = M.lift r := by
    unfold callNative
    rw [if_neg h.2.2, if_neg h.2.1]
    split
    · exact ⟨_, rfl⟩
    · split
      · exact ⟨_, rfl⟩
      · split
        · exact ⟨_, rfl⟩
        · exact ⟨_, rfl⟩
  obtain ⟨r, hr⟩ := hl
  exact ⟨r, fun recs sent out => by rw [hn, hr]; rfl⟩

/-- An expression that only computes changes nothing. -/
theorem computes_still (net : Net) (h : OnlyComputes table D e) : Still table 0 (evalExpr (callAt net 1) e) (evalExpr (callAt net 1) e) := by
  have hc : ∀ f ∈ called e, (callAt net 1 : Call F) f = (fun g vs => if g ∈ called e then callAt net 1 g vs else M.lift .panic : Call F) f := by
    intro f h
    funext vs
    dsimp only
    rw [if_pos h]
  rw [evalExpr_names _ _ e hc]
  intro inner
  refine evalExpr_closed (P := fun {_} n x y => Still table n x y) (call' := fun g vs => if g ∈ called e then callAt net 1 g vs else M.lift .panic) still_closed ?_ e
    (fun n hn => by rw [h.sets] at hn; cases hn) (fun _ _ => .inl fun _ => still_lift 0 _) inner
  intro f vs
  by_cases hf : f ∈ called e
  · simp only [if_pos hf]; exact still_call net f vs (h.quiet f (by simpa [calledList] using hf))
  · simp only [if_neg hf]; exact still_lift 1 _

/-- The two states while the two scripts run: the variables of `D` are as they were in `s0`, and the second state has the variable `x` with the value `v`. -/
structure Pair (table : List (Str × (Str × List (Expr F)))) (D : Str → Prop) (x : Str) (v : Value F) (s0 s t : St F) : Prop where
  left : s.ctx.requests = table
  right : t.ctx.requests = table
  records : s.ctx.records = t.ctx.records
  sent : s.sent = t.sent
  out : s.out = t.out
  vars : ∀ y, y ≠ x → s.ctx.get y = t.ctx.get y
  name : t.ctx.get x = some v
  old : ∀ y, D y → s.ctx.get y = s0.ctx.get y

/-- The same outcome from paired states, and paired states again. -/
def Paired (table : List (Str × (Str × List (Expr F)))) (D : Str → Prop) (x : Str) (v : Value F) (s0 : St F) {α : Type} (m m' : M F α) : Prop :=
  ∀ s t, Pair table D x v s0 s t → (m s).1 = (m' t).1 ∧ Pair table D x v s0 (m s).2 (m' t).2

theorem Paired.lift {α : Type} (r : Res α) : Paired table D x v s0 (M.lift r : M F α) (M.lift r) := fun _ _ h => ⟨rfl, h⟩

theorem Paired.pure {α : Type} (a : α) : Paired table D x v s0 (M.pure a : M F α) (M.pure a) := fun _ _ h => ⟨rfl, h⟩

theorem Paired.bind {α β : Type} {m m' : M F α} {f f' : α → M F β} (hm : Paired table D x v s0 m m') (hf : ∀ a, Paired table D x v s0 (f a) (f' a)) :
    Paired table D x v s0 (m >>= f) (m' >>= f') := by
  intro s t h
  obtain ⟨h1, h2⟩ := hm s t h
  cases hr : m s with | mk r s' =>
  cases hr' : m' t with | mk r' t' =>
  rw [hr, hr'] at h1 h2
  dsimp only at h1 h2
  subst h1
  cases r with
  | ok a => rw [M.bind_ok hr, M.bind_ok hr']; exact hf a s' t' h2
  | err e => rw [M.bind_err hr, M.bind_err hr']; exact ⟨rfl, h2⟩
  | panic => rw [M.bind_panic hr, M.bind_panic hr']; exact ⟨rfl, h2⟩
  | hang => rw [M.bind_hang hr, M.bind_hang hr']; exact ⟨rfl, h2⟩

theorem Paired.write {y : Str} (hy : y ≠ x) (hd : ¬ D y) (w : Value F) : Paired table D x v s0 (writeVar y w) (writeVar y w) := by
  intro s t h
  have hg : ∀ (c : Context F) z, (c.set y w).get z = if z = y then some w else c.get z := by
    intro c z
    simp only [Context.get, Context.set, amGet_insert]
    by_cases hz : z = y
    · subst hz; simp
    · simp [hz, Ne.symm hz]
  refine ⟨rfl, ⟨h.left, h.right, h.records, h.sent, h.out, fun z hz => ?_, ?_, fun z hz => ?_⟩⟩
  · show (s.ctx.set y w).get z = (t.ctx.set y w).get z
    rw [hg, hg, h.vars z hz]
  · show (t.ctx.set y w).get x = some v
    rw [hg, if_neg (Ne.symm hy)]; exact h.name
  · show (s.ctx.set y w).get z = _
    rw [hg, if_neg (fun he : z = y => hd (he ▸ hz))]; exact h.old z hz

theorem Paired.say (o : Str) : Paired table D x v s0 (M.modify (F := F) fun s => { s with out := s.out ++ o }) (M.modify fun s => { s with out := s.out ++ o }) :=
  fun _ _ h => ⟨rfl, ⟨h.left, h.right, h.records, h.sent, congrArg (· ++ o) h.out, h.vars, h.name, h.old⟩⟩

theorem Paired.native (f : Str) (vs : List (Value F)) : Paired table D x v s0 (callNative f vs) (callNative f vs) := by
  unfold callNative
  split
  · refine Paired.bind (Paired.lift _) fun w => ?_
    have := Paired.say (table := table) (D := D) (x := x) (v := v) (s0 := s0) (w.display ++ c!"\n")
    simp only [← List.append_assoc] at this
    exact Paired.bind this fun _ => Paired.pure _
  · split
    · exact Paired.bind (Paired.lift _) fun w => Paired.bind (Paired.say _) fun _ => Paired.pure _
    · split
      · exact Paired.lift _
      · split
        · exact Paired.lift _
        · split <;> exact Paired.lift _

theorem Paired.call (net : Net) (f : Str) (vs : List (Value F)) (hk : KnownCall table (· ≠ x) f) :
    Paired table D x v s0 (callAt net 1 f vs) (callAt net 1 f vs) := by
  intro s t h
  cases hr : amGet f table with
  | none =>
    rw [callAt_none net vs (show s.ctx.request f = none by rw [Context.request, h.left, hr]),
      callAt_none net vs (show t.ctx.request f = none by rw [Context.request, h.right, hr])]
    exact Paired.native f vs s t h
  | some p =>
    obtain ⟨message, asserts⟩ := p
    rw [callAt_some net vs (show s.ctx.request f = some (message, asserts) by rw [Context.request, h.left, hr]),
      callAt_some net vs (show t.ctx.request f = some (message, asserts) by rw [Context.request, h.right, hr])]
    have hren : render s.ctx message = render t.ctx message := by
      obtain ⟨ps, h1, h2, h3⟩ := c27_render s.ctx message
      obtain ⟨qs, g1, _, g3⟩ := c27_render t.ctx message
      rw [h2 qs g1] at g3
      rw [h3, g3]
      refine fillBy_same (fun y hy => ?_)
      have := h.vars y (hk message asserts ps y hr h1 hy)
      simp only [Context.get] at this
      rw [this]
    obtain ⟨r, recs, sent, out, h1, h2⟩ := callRequest_same net (callAt net 0) f message asserts s t hren h.sent h.out
    rw [h1, h2]
    exact ⟨rfl, ⟨h.left, h.right, congrArg (· ++ recs) h.records, rfl, rfl, h.vars, h.name, h.old⟩⟩

/-- Where the expression stands in one script and its name in the other. -/
theorem Paired.here (net : Net) (hc : OnlyComputes table D e) (h0 : s0.ctx.requests = table) (hv : (eval net e s0).1 = .ok v) :
    Paired table D x v s0 (evalExpr (callAt net 1) e) (evalExpr (callAt net 1) (.ident x)) := by
  intro s t h
  obtain ⟨⟨i0, t0, r0⟩, n0, o0⟩ := s0
  obtain ⟨⟨i, tb, r⟩, n, o⟩ := s
  have hl : tb = table := h.left
  have h0' : t0 = table := h0
  subst hl h0'
  obtain ⟨w0, g0⟩ := computes_still net hc i0
  obtain ⟨w, g⟩ := computes_still net hc i
  have ha : Alike D (⟨⟨i, t0, r0⟩, n0, o0⟩ : St F) ⟨⟨i0, t0, r0⟩, n0, o0⟩ := ⟨rfl, rfl, rfl, rfl, fun y hy => h.old y hy⟩
  have hfl := (flows_expr net e D hc.reads _ _ rfl ha).1
  rw [g0, g] at hfl
  unfold eval at hv
  rw [g0] at hv
  dsimp only at hfl hv
  subst hfl hv
  rw [g]
  simp only [evalExpr, h.name]
  exact ⟨trivial, h⟩

theorem operator_known {k : Kind} (h : k ∈ operators) : (binaryOp (F := F) k).isSome = true ∨ k = .La ∨ k = .Lo := by
  simp only [operators, List.mem_cons, List.not_mem_nil, or_false] at h
  rcases h with h | h | h | h | h | h | h | h | h | h | h | h | h | h | h | h | h | h <;> subst h <;> simp [binaryOp]

section
variable (net : Net) (hc : OnlyComputes table D e) (h0 : s0.ctx.requests = table) (hv : (eval net e s0).1 = .ok v)
include hc h0 hv

mutual
theorem named_expr : ∀ {p q : Expr F}, Naming table D x e p q → Paired table D x v s0 (evalExpr (callAt net 1) p) (evalExpr (callAt net 1) q)
  | _, _, .here => Paired.here net hc h0 hv
  | _, _, .int _ | _, _, .float _ | _, _, .bool _ | _, _, .str _ => by simp only [evalExpr]; exact Paired.pure _
  | _, _, @Naming.ident _ _ _ _ _ y hy => by
    intro s t h
    simp only [evalExpr, h.vars y hy]
    cases t.ctx.get y with
    | some w => exact ⟨rfl, h⟩
    | none => exact ⟨rfl, h⟩
  | _, _, .arr h => by
    have ih := named_list h
    simp only [evalExpr]
    exact Paired.bind ih fun _ => Paired.pure _
  | _, _, .map h => by
    have ih := named_pairs h []
    simp only [evalExpr]
    exact Paired.bind ih fun _ => Paired.pure _
  | _, _, .index h h' => by
    have ih := named_expr h
    have ih' := named_expr h'
    simp only [evalExpr]
    exact Paired.bind ih fun _ => Paired.bind ih' fun _ => Paired.lift _
  | _, _, .field h => by
    have ih := named_expr h
    simp only [evalExpr]
    exact Paired.bind ih fun _ => Paired.lift _
  | _, _, .letE hy hd h => by
    have ih := named_expr h
    simp only [evalExpr]
    exact Paired.bind ih fun w => Paired.bind (Paired.write hy hd w) fun _ => Paired.pure _
  | _, _, .unary h => by
    have ih := named_expr h
    simp only [evalExpr]
    exact Paired.bind ih fun _ => Paired.lift _
  | _, _, @Naming.binary _ _ _ _ _ t l l' r r' ht h h' => by
    have ih := named_expr h
    have ih' := named_expr h'
    simp only [evalExpr]
    rcases operator_known (F := F) ht with ho | ho | ho
    · obtain ⟨op, ho⟩ := Option.isSome_iff_exists.1 ho
      rw [ho]
      exact Paired.bind ih fun _ => Paired.bind ih' fun _ => Paired.lift _
    · rw [ho]
      simp only [binaryOp, reduceCtorEq, if_true, if_false]
      refine Paired.bind ih fun a => ?_
      split
      · exact Paired.pure _
      · exact ih'
    · rw [ho]
      simp only [binaryOp, if_true]
      refine Paired.bind ih fun a => ?_
      split
      · exact ih'
      · exact Paired.pure _
  | _, _, .paren h => by
    have ih := named_expr h
    simp only [evalExpr]
    exact ih
  | _, _, .ifE h h1 h2 => by
    have ih := named_expr h
    have ih1 := named_block h1 .null
    have ih2 := named_block h2 .null
    simp only [evalExpr]
    refine Paired.bind ih fun a => ?_
    split
    · exact ih2
    · exact ih1
  | _, _, .call hk h => by
    have ih := named_list h
    simp only [evalExpr]
    exact Paired.bind ih fun vs => Paired.call net _ vs hk
theorem named_list : ∀ {p q : List (Expr F)}, NamingList table D x e p q → Paired table D x v s0 (evalList (callAt net 1) p) (evalList (callAt net 1) q)
  | _, _, .nil => by simp only [evalList]; exact Paired.pure _
  | _, _, .cons h h' => by
    have ih := named_expr h
    have ih' := named_list h'
    simp only [evalList]
    exact Paired.bind ih fun _ => Paired.bind ih' fun _ => Paired.pure _
theorem named_pairs : ∀ {p q : List (Expr F × Expr F)}, NamingPairs table D x e p q → ∀ acc,
    Paired table D x v s0 (evalPairs (callAt net 1) acc p) (evalPairs (callAt net 1) acc q)
  | _, _, .nil => by intro acc; simp only [evalPairs]; exact Paired.pure _
  | _, _, .cons h1 h2 h3 => by
    have ih1 := named_expr h1
    have ih2 := named_expr h2
    have ih3 := named_pairs h3
    intro acc
    simp only [evalPairs]
    exact Paired.bind ih1 fun _ => Paired.bind ih2 fun _ => ih3 _
theorem named_block : ∀ {p q : List (Expr F)}, NamingList table D x e p q → ∀ acc,
    Paired table D x v s0 (evalBlock (callAt net 1) acc p) (evalBlock (callAt net 1) acc q)
  | _, _, .nil => by intro acc; simp only [evalBlock]; exact Paired.pure _
  | _, _, .cons h h' => by
    have ih := named_expr h
    have ih' := named_block h'
    intro acc
    simp only [evalBlock]
    exact Paired.bind ih fun _ => ih' _
end
end

/-- C112: a variable set to an expression that only computes may stand for that expression in everything that follows, as long as nothing in between sets the
variables it is computed from: the script with the variable has the same outcome, sends and prints the same, makes the same records and leaves the same
other variables. Reading from right to left, a variable may be replaced by the expression it was set to. The expression must have a value where the
variable is set, as it may stand behind a condition in the other script. -/
theorem c112_block (net : Net) (before p q : List (Expr F)) (s : St F) (hc : OnlyComputes s.ctx.requests D e) (hn : NamingList s.ctx.requests D x e p q) (hp : p ≠ [])
    (hok : ∀ v s0, runBlock net before s = (.ok v, s0) → ∃ w, (eval net e s0).1 = .ok w) :
    (runBlock net (before ++ p) s).1 = (runBlock net (before ++ .letE x e :: q) s).1 ∧
      Alike (· ≠ x) (runBlock net (before ++ p) s).2 (runBlock net (before ++ .letE x e :: q) s).2 := by
  have hreq := c19_requests_fixed net before s
  rcases hb : runBlock net before s with ⟨r, s0⟩
  rw [hb] at hreq
  have hreq : s0.ctx.requests = s.ctx.requests := hreq
  by_cases hr : ∃ v, r = .ok v
  rotate_left
  · have e1 : ∀ rest, runBlock net (before ++ rest) s = (r, s0) := fun rest => evalBlock_stop _ _ _ _ _ _ _ hb fun v h => hr ⟨v, h⟩
    rw [e1, e1]
    exact ⟨rfl, rfl, rfl, rfl, rfl, fun _ _ => rfl⟩
  obtain ⟨v, rfl⟩ := hr
  obtain ⟨w, hw⟩ := hok v s0 hb
  have hq : q ≠ [] := by cases hn with | nil => exact hp | cons _ _ => simp
  have e1 : runBlock net (before ++ p) s = evalBlock (callAt net 1) .null p s0 :=
    (evalBlock_append _ _ _ _ _ _ _ hb).trans (by rw [evalBlock_acc _ hp v .null])
  have e2 : runBlock net (before ++ .letE x e :: q) s = evalBlock (callAt net 1) v (.letE x e :: q) s0 := evalBlock_append _ _ _ _ _ _ _ hb
  rw [← hreq] at hc hn
  obtain ⟨⟨i, tb, rc⟩, sn, o⟩ := s0
  obtain ⟨r0, g0⟩ := computes_still net hc i
  have hev : evalExpr (callAt net 1) e ⟨⟨i, tb, rc⟩, sn, o⟩ = (.ok w, ⟨⟨i, tb, rc⟩, sn, o⟩) := by
    unfold eval at hw
    rw [g0] at hw ⊢
    dsimp only at hw
    rw [hw]
  have e3 : evalBlock (callAt net 1) v (.letE x e :: q) ⟨⟨i, tb, rc⟩, sn, o⟩ = evalBlock (callAt net 1) .null q ⟨⟨amInsert x w i, tb, rc⟩, sn, o⟩ := by
    have hlet : evalExpr (callAt net 1) (.letE x e) ⟨⟨i, tb, rc⟩, sn, o⟩ = (.ok w, ⟨⟨amInsert x w i, tb, rc⟩, sn, o⟩) := by
      simp only [evalExpr]
      rw [M.bind_ok hev, M.bind_ok (M.modify_run _ _)]
      rfl
    simp only [evalBlock]
    rw [M.bind_ok hlet, evalBlock_acc _ hq w .null]
  rw [e1, e2, e3]
  have hpair : Pair tb D x w ⟨⟨i, tb, rc⟩, sn, o⟩ (⟨⟨i, tb, rc⟩, sn, o⟩ : St F) ⟨⟨amInsert x w i, tb, rc⟩, sn, o⟩ :=
    ⟨rfl, rfl, rfl, rfl, rfl, fun y hy => (amGet_insert_ne w i (Ne.symm hy)).symm, amGet_insert_self _ _ _, fun _ _ => rfl⟩
  obtain ⟨k1, k2⟩ := named_block net hc rfl hw hn .null _ _ hpair
  exact ⟨k1, k2.left.trans k2.right.symm, k2.records, k2.sent, k2.out, k2.vars⟩

/-- C112: the same for `am eval` on two texts. -/
theorem c112_text (net : Net) {text text' : Str} {before : List (Item F)} {p q : List (Expr F)} (s : St F) (h1 : Accepted text (before ++ p.map .expr))
    (h2 : Accepted text' (before ++ (.letE x e :: q).map .expr)) (hc : OnlyComputes (addRequests before s.ctx.requests) D e)
    (hn : NamingList (addRequests before s.ctx.requests) D x e p q) (hp : p ≠ [])
    (hok : ∀ v s0, runBlock net (exprsOf before) (withItems s before) = (.ok v, s0) → ∃ w, (eval net e s0).1 = .ok w) :
    (evalText net text s).1 = (evalText net text' s).1 ∧ Alike (· ≠ x) (evalText net text s).2 (evalText net text' s).2 := by
  have hx : ∀ c : List (Expr F), exprsOf (before ++ c.map Item.expr) = exprsOf before ++ c ∧ withItems s (before ++ c.map Item.expr) = withItems s before := by
    intro c
    constructor
    · simp only [exprsOf_append, exprsOf_exprs]
    · unfold withItems
      simp only [addRequests_append, addRequests_exprs]
  rw [evalText_run net h1, evalText_run net h2, (hx p).1, (hx p).2, (hx _).1, (hx _).2]
  obtain ⟨g1, g2⟩ := c112_block net (exprsOf before) p q (withItems s before) hc hn hp hok
  rcases hx1 : runBlock net (exprsOf before ++ p) (withItems s before) with ⟨r, t⟩
  rcases hx2 : runBlock net (exprsOf before ++ .letE x e :: q) (withItems s before) with ⟨r', t'⟩
  rw [hx1, hx2] at g1 g2
  dsimp only at g1 g2
  subst g1
  cases r with
  | ok v => exact ⟨rfl, g2.requests, g2.records, g2.sent, congrArg (fun o => o ++ v.display ++ c!"\n") g2.out, g2.vars⟩
  | err e => exact ⟨rfl, g2.requests, g2.records, g2.sent, congrArg (fun o => o ++ e ++ c!"\n") g2.out, g2.vars⟩
  | panic => exact ⟨rfl, g2⟩
  | hang => exact ⟨rfl, g2⟩

/-- Concrete case: `println("{n}", length(a) + 1); length(a) * 2` with a name for `length(a)`. -/
example : OnlyComputes ([] : List (Str × (Str × List (Expr F)))) (· = c!"a") (.call c!"length" [.ident c!"a"]) ∧
    NamingList ([] : List (Str × (Str × List (Expr F)))) (· = c!"a") c!"n" (.call c!"length" [.ident c!"a"])
      [.call c!"println" [.str c!"{n}", .binary ⟨.Add, c!"+"⟩ (.call c!"length" [.ident c!"a"]) (.int 1)],
        .binary ⟨.Mul, c!"*"⟩ (.call c!"length" [.ident c!"a"]) (.int 2)]
      [.call c!"println" [.str c!"{n}", .binary ⟨.Add, c!"+"⟩ (.ident c!"n") (.int 1)], .binary ⟨.Mul, c!"*"⟩ (.ident c!"n") (.int 2)] := by
  refine ⟨⟨?_, rfl, ?_⟩, .cons (.call ?_ (.cons (.str _) (.cons (.binary (by decide) .here (.int _)) .nil))) (.cons (.binary (by decide) .here (.int _)) .nil)⟩
  · simp only [KnownIn, KnownList, KnownCall]; simp [amGet]
  · intro f hf
    have : f = c!"length" := by simpa [calledList, called] using hf
    subst this
    exact ⟨rfl, by decide, by decide⟩
  · intro _ _ _ _ h; cases h

/-- C112: that the variables of the expression are not set in between is needed, and that it has a value. -/
theorem c112_needed (net : Net) :
    (runBlock net [.letE c!"a" (.int 2), .ident c!"a"] (⟨⟨[(c!"a", .int 1)], [], []⟩, [], []⟩ : St F)).1 = .ok (.int 2) ∧
    (runBlock net [.letE c!"x" (.ident c!"a"), .letE c!"a" (.int 2), .ident c!"x"] (⟨⟨[(c!"a", .int 1)], [], []⟩, [], []⟩ : St F)).1 = .ok (.int 1) ∧
    (runBlock net [.ifE (.bool false) [.ident c!"a"] [.int 1]] (⟨Context.new, [], []⟩ : St F)).1 = .ok (.int 1) ∧
    (runBlock net [.letE c!"x" (.ident c!"a"), .ifE (.bool false) [.ident c!"x"] [.int 1]] (⟨Context.new, [], []⟩ : St F)).1 = .err c!"ident:a not found" :=
  ⟨rfl, rfl, rfl, rfl⟩

end Am
