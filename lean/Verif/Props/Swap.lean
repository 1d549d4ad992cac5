import Verif.Spec.Swap
import Verif.Props.Flow
import Verif.Props.Joining
/-! # C111: statements that do not depend on each other can change places -/
set_option linter.unusedSimpArgs false
set_option linter.unusedSectionVars false
namespace Am
open Spec
variable {F : Type} [Rt F] {table : List (Str × (Str × List (Expr F)))}

/-! ## Statements that only compute -/

/-- With the requests of `table`, `x` reads and changes nothing but variables. -/
def Bare (table : List (Str × (Str × List (Expr F)))) {α : Type} (_ : Nat) (x _y : M F α) : Prop :=
  ∀ inner, ∃ r inner', ∀ recs sent out, x ⟨⟨inner, table, recs⟩, sent, out⟩ = (r, ⟨⟨inner', table, recs⟩, sent, out⟩)

theorem bare_lift {α : Type} (n : Nat) (r : Res α) : Bare table n (M.lift r : M F α) (M.lift r) := fun inner => ⟨r, inner, fun _ _ _ => rfl⟩

theorem bare_closed : Closed (F := F) (fun {_} n x y => Bare table n x y) where
  pure a inner := ⟨.ok a, inner, fun _ _ _ => rfl⟩
  bind {α β m n x y f g} hx hf inner := by
    obtain ⟨r, i1, h1⟩ := hx inner
    cases r with
    | ok a =>
      obtain ⟨r2, i2, h2⟩ := hf a i1
      exact ⟨r2, i2, fun recs sent out => by rw [M.bind_ok (h1 recs sent out), h2]⟩
    | err e => exact ⟨.err e, i1, fun recs sent out => by rw [M.bind_err (h1 recs sent out)]⟩
    | panic => exact ⟨.panic, i1, fun recs sent out => by rw [M.bind_panic (h1 recs sent out)]⟩
    | hang => exact ⟨.hang, i1, fun recs sent out => by rw [M.bind_hang (h1 recs sent out)]⟩
  mono _ h := h
  ident n inner := by
    cases h : amGet n inner with
    | some v => exact ⟨.ok v, inner, fun recs sent out => by simp only [readVar, Context.get, h]⟩
    | none => exact ⟨_, inner, fun recs sent out => by simp only [readVar, Context.get, h]; rfl⟩
  lift _ _ := bare_lift 0 _

theorem bare_write (n : Str) (v : Value F) : Bare table 0 (writeVar n v) (writeVar n v) :=
  fun inner => ⟨_, amInsert n v inner, fun _ _ _ => rfl⟩

theorem bare_call (net : Net) (f : Str) (vs : List (Value F)) (h : amGet f table = none ∧ f ≠ c!"print" ∧ f ≠ c!"println") :
    Bare table 1 (callAt net 1 f vs) (callAt net 1 f vs) := by
  intro inner
  have hn : ∀ recs sent out, callAt net 1 f vs ⟨⟨inner, table, recs⟩, sent, out⟩ = callNative f vs ⟨⟨inner, table, recs⟩, sent, out⟩ :=
    fun recs sent out => callAt_none net vs (show (⟨inner, table, recs⟩ : Context F).request f = none from h.1)
  have hl : ∃ r, (callNative f vs : M F (Value F)) = M.lift r := by
    unfold callNative
    rw [if_neg h.2.2, if_neg h.2.1]
    split
    · exact ⟨_, rfl⟩
    · split
      · exact ⟨_, rfl⟩
      · split
        · exact ⟨_, rfl⟩
        · exact ⟨_, rfl⟩
  obtain ⟨r, hr⟩ := hl
  exact ⟨r, inner, fun recs sent out => by rw [hn, hr]; rfl⟩

/-- A quiet block reads and changes nothing but variables. -/
theorem quiet_block (net : Net) {b : List (Expr F)} (hq : QuietIn table b) : Bare table 0 (runBlock net b) (runBlock net b) := by
  have hc : ∀ f ∈ calledList b, (callAt net 1 : Call F) f = (fun g vs => if g ∈ calledList b then callAt net 1 g vs else M.lift .panic : Call F) f := by
    intro f h
    funext vs
    dsimp only
    rw [if_pos h]
  have : (runBlock net b : M F (Value F)) = evalBlock (fun g vs => if g ∈ calledList b then callAt net 1 g vs else M.lift .panic : Call F) .null b :=
    evalBlock_names _ _ b hc .null
  rw [this]
  intro inner
  refine evalBlock_closed (P := fun {_} n x y => Bare table n x y) (call' := fun g vs => if g ∈ calledList b then callAt net 1 g vs else M.lift .panic) bare_closed ?_ b .null (fun n _ v => bare_write n v) (fun _ _ => .inl fun _ => bare_lift 0 _) inner
  intro f vs
  by_cases h : f ∈ calledList b
  · simp only [if_pos h]; exact bare_call net f vs (hq f h)
  · simp only [if_neg h]; exact bare_lift 1 _

/-! ## Changing places -/

/-- C111: two independent parts of a script, in either order: each has the outcome it has in the other order, and afterwards the messages, the printed text,
the records and all variables are the same. -/
theorem c111_swap (net : Net) (a b : List (Expr F)) (s : St F) (hi : NoInfluence s.ctx.requests a b) :
    (runBlock net a (runBlock net b s).2).1 = (runBlock net a s).1 ∧ (runBlock net b (runBlock net a s).2).1 = (runBlock net b s).1 ∧
      Alike (fun _ => True) (runBlock net a (runBlock net b s).2).2 (runBlock net b (runBlock net a s).2).2 := by
  obtain ⟨⟨inner, table, recs⟩, sent, out⟩ := s
  -- the quiet part first
  obtain ⟨rb, ib, hb⟩ := quiet_block net hi.quiet inner
  have frame_b : ∀ (t : St F) x, x ∉ letsList b → (runBlock net b t).2.ctx.get x = t.ctx.get x := fun t x hx => c17_frame net b t x hx
  have frame_a : ∀ (t : St F) x, x ∉ letsList a → (runBlock net a t).2.ctx.get x = t.ctx.get x := fun t x hx => c17_frame net a t x hx
  rw [hb recs sent out]
  dsimp only
  -- `a` after `b` and alone
  have hab : Alike (fun x => x ∉ letsList b) (⟨⟨inner, table, recs⟩, sent, out⟩ : St F) ⟨⟨ib, table, recs⟩, sent, out⟩ :=
    ⟨rfl, rfl, rfl, rfl, fun x hx => by
      have := frame_b ⟨⟨inner, table, recs⟩, sent, out⟩ x hx
      rw [hb] at this
      exact this.symm⟩
  obtain ⟨a1, a2, _⟩ := c77_block net a _ _ _ hab hi.left
  have a3 := c77_wrote net a _ _ _ hab hi.left
  -- `b` after `a` and alone
  have hreq := c19_requests_fixed net a (⟨⟨inner, table, recs⟩, sent, out⟩ : St F)
  have hfa := frame_a ⟨⟨inner, table, recs⟩, sent, out⟩
  rcases hx : runBlock net a (⟨⟨inner, table, recs⟩, sent, out⟩ : St F) with ⟨ra, ⟨⟨ia, ta, ra'⟩, sa, oa⟩⟩
  rw [hx] at a1 a2 a3 hreq hfa
  dsimp only at a1 a2 a3 hreq hfa
  subst hreq
  obtain ⟨rb2, ib2, hb2⟩ := quiet_block net hi.quiet ia
  have hba : Alike (fun x => x ∉ letsList a) (⟨⟨inner, ta, recs⟩, sent, out⟩ : St F) ⟨⟨ia, ta, recs⟩, sent, out⟩ :=
    ⟨rfl, rfl, rfl, rfl, fun x hx => (hfa x hx).symm⟩
  obtain ⟨b1, _, _⟩ := c77_block net b _ _ _ hba hi.right
  have b3 := c77_wrote net b _ _ _ hba hi.right
  have fb2 := frame_b ⟨⟨ia, ta, ra'⟩, sa, oa⟩
  have fb1 := frame_b ⟨⟨inner, ta, recs⟩, sent, out⟩
  have fa2 := frame_a ⟨⟨ib, ta, recs⟩, sent, out⟩
  have q := c19_requests_fixed net a (⟨⟨ib, ta, recs⟩, sent, out⟩ : St F)
  rw [hb, hb2] at b1 b3
  rw [hb2] at fb2
  rw [hb] at fb1
  rw [hb2]
  dsimp only at b1 b3 fb2 fb1 fa2 ⊢
  refine ⟨a1.symm, b1.symm, ⟨q, a2.records.symm, a2.sent.symm, a2.out.symm, fun x _ => ?_⟩⟩
  simp only [Context.get] at *
  by_cases hxa : x ∈ letsList a
  · have hxb := hi.sets x hxa
    rw [fb2 x hxb]
    rcases a3 x with h | ⟨h1, h2⟩
    · exact h.symm
    · rw [h2, fb1 x hxb, h1]
  · rw [fa2 x hxa]
    rcases b3 x with h | ⟨h1, h2⟩
    · exact h
    · rw [h1, h2, hfa x hxa]

/-! ## Inside a script -/

theorem evalBlock_acc (call : Call F) {l : List (Expr F)} (h : l ≠ []) (acc acc' : Value F) : evalBlock call acc l = evalBlock call acc' l := by
  cases l with
  | nil => exact absurd rfl h
  | cons e l => simp only [evalBlock]

theorem evalBlock_stop (call : Call F) (es rest : List (Expr F)) : ∀ (acc : Value F) (s s1 : St F) (r : Res (Value F)),
    evalBlock call acc es s = (r, s1) → (∀ v, r ≠ .ok v) → evalBlock call acc (es ++ rest) s = (r, s1) := by
  induction es with
  | nil => intro acc s s1 r h hr; injection h with h1 _; exact absurd h1.symm (hr _)
  | cons e es ih =>
    intro acc s s1 r h hr
    simp only [evalBlock, List.cons_append] at h ⊢
    match hs : evalExpr call e s with
    | (.ok a, s2) => rw [M.bind_ok hs] at h ⊢; exact ih a s2 s1 r h hr
    | (.err _, s2) => rw [M.bind_err hs] at h ⊢; exact h
    | (.panic, s2) => rw [M.bind_panic hs] at h ⊢; exact h
    | (.hang, s2) => rw [M.bind_hang hs] at h ⊢; exact h

mutual
/-- Every script reads only what it reads. -/
theorem known_all : ∀ (e : Expr F) {D : Str → Prop}, (∀ x, D x) → KnownIn table D e
  | .int _, _, _ | .float _, _, _ | .bool _, _, _ | .str _, _, _ => by simp only [KnownIn]
  | .ident n, _, h => by simp only [KnownIn]; exact h n
  | .arr items, _, h => by simp only [KnownIn]; exact known_list items h
  | .map pairs, _, h => by simp only [KnownIn]; exact known_pairs pairs h
  | .index l i, _, h => by simp only [KnownIn]; exact ⟨known_all l h, known_all i fun x => .inl (h x)⟩
  | .field l _, _, h => by simp only [KnownIn]; exact known_all l h
  | .letE _ v, _, h => by simp only [KnownIn]; exact known_all v h
  | .unary _ r, _, h => by simp only [KnownIn]; exact known_all r h
  | .binary _ l r, _, h => by simp only [KnownIn]; exact ⟨known_all l h, known_all r fun x => .inl (h x)⟩
  | .paren v, _, h => by simp only [KnownIn]; exact known_all v h
  | .ifE c t e, _, h => by simp only [KnownIn]; exact ⟨known_all c h, known_list t fun x => .inl (h x), known_list e fun x => .inl (h x)⟩
  | .call f args, _, h => by simp only [KnownIn]; exact ⟨known_list args h, fun _ _ _ x _ _ _ => .inl (h x)⟩
termination_by structural e => e
theorem known_list : ∀ (l : List (Expr F)) {D : Str → Prop}, (∀ x, D x) → KnownList table D l
  | [], _, _ => by simp only [KnownList]
  | e :: l, _, h => by simp only [KnownList]; exact ⟨known_all e h, known_list l fun x => .inl (h x)⟩
termination_by structural l => l
theorem known_pairs : ∀ (l : List (Expr F × Expr F)) {D : Str → Prop}, (∀ x, D x) → KnownPairs table D l
  | [], _, _ => by simp only [KnownPairs]
  | (k, v) :: l, _, h => by
    simp only [KnownPairs]
    exact ⟨known_all k h, known_all v fun x => .inl (h x), known_pairs l fun x => .inl (.inl (h x))⟩
termination_by structural l => l
end

/-- C111: two independent parts of a script that follow each other can change places: if the part that only computes has a value where it stands, the script has
the same outcome, sends the same messages in the same order, prints the same text and makes the same records; and if it has a value, all variables end up the
same. More must follow, as the value of a script is that of its last statement. -/
theorem c111_block (net : Net) (before a b after : List (Expr F)) (s : St F) (hi : NoInfluence s.ctx.requests a b) (ha : a ≠ []) (hb : b ≠ []) (hr : after ≠ [])
    (hok : ∀ v s0, runBlock net before s = (.ok v, s0) → ∃ w, (runBlock net b s0).1 = .ok w) :
    (runBlock net (before ++ (a ++ (b ++ after))) s).1 = (runBlock net (before ++ (b ++ (a ++ after))) s).1 ∧
    (runBlock net (before ++ (a ++ (b ++ after))) s).2.sent = (runBlock net (before ++ (b ++ (a ++ after))) s).2.sent ∧
    (runBlock net (before ++ (a ++ (b ++ after))) s).2.out = (runBlock net (before ++ (b ++ (a ++ after))) s).2.out ∧
    (runBlock net (before ++ (a ++ (b ++ after))) s).2.ctx.records = (runBlock net (before ++ (b ++ (a ++ after))) s).2.ctx.records ∧
    ∀ v, (runBlock net (before ++ (a ++ (b ++ after))) s).1 = .ok v →
      Alike (fun _ => True) (runBlock net (before ++ (a ++ (b ++ after))) s).2 (runBlock net (before ++ (b ++ (a ++ after))) s).2 := by
  have hreq := c19_requests_fixed net before s
  rcases hp : runBlock net before s with ⟨r, s0⟩
  rw [hp] at hreq
  by_cases hrok : ∃ v, r = .ok v
  rotate_left
  · have e : ∀ rest, runBlock net (before ++ rest) s = (r, s0) := fun rest => evalBlock_stop _ _ _ _ _ _ _ hp fun v h => hrok ⟨v, h⟩
    rw [e, e]
    exact ⟨rfl, rfl, rfl, rfl, fun v h => absurd ⟨v, h⟩ hrok⟩
  obtain ⟨v, rfl⟩ := hrok
  obtain ⟨w, hw⟩ := hok v s0 hp
  have e : ∀ c rest, c ≠ [] → runBlock net (before ++ (c ++ rest)) s = evalBlock (callAt net 1) .null (c ++ rest) s0 := fun c rest hc =>
    (evalBlock_append _ _ _ _ _ _ _ hp).trans (by rw [evalBlock_acc _ (by simp [hc]) v .null])
  rw [e a _ ha, e b _ hb]
  obtain ⟨h1, h2, h3⟩ := c111_swap net a b s0 (by rw [show s0.ctx.requests = _ from hreq]; exact hi)
  rcases hxb : runBlock net b s0 with ⟨rb, sb⟩
  rw [hxb] at hw h1 h2 h3
  dsimp only at hw h1 h2 h3
  subst hw
  rcases hxa : runBlock net a s0 with ⟨ra, sa⟩
  rw [hxa] at h1 h2 h3
  dsimp only at h1 h2 h3
  rcases hxab : runBlock net a sb with ⟨ra2, sba⟩
  rw [hxab] at h1 h3
  dsimp only at h1 h3
  rcases hxba : runBlock net b sa with ⟨rb2, sab⟩
  rw [hxba] at h2 h3
  dsimp only at h2 h3
  subst h1 h2
  rw [evalBlock_append (callAt net 1) b (a ++ after) .null s0 sb w hxb, evalBlock_acc _ (by simp [ha]) w .null]
  by_cases hra : ∃ v, ra2 = .ok v
  rotate_left
  · have hno : ∀ v, ra2 ≠ .ok v := fun v h => hra ⟨v, h⟩
    rw [evalBlock_stop _ a _ _ _ _ _ hxab hno, evalBlock_stop _ a _ _ _ _ _ hxa hno]
    -- the quiet part changes only variables
    have hq : QuietIn sa.ctx.requests b := by
      have g1 := c19_requests_fixed net a s0
      rw [hxa] at g1
      rw [show sa.ctx.requests = _ from g1, show s0.ctx.requests = _ from hreq]
      exact hi.quiet
    obtain ⟨⟨i, t, rc⟩, sn, o⟩ := sa
    obtain ⟨r', i', h⟩ := quiet_block net hq i
    rw [h] at hxba
    injection hxba with _ hxba
    subst hxba
    exact ⟨rfl, h3.sent.symm, h3.out.symm, h3.records.symm, fun v h => absurd h (hno v)⟩
  obtain ⟨va, rfl⟩ := hra
  rw [evalBlock_append (callAt net 1) a after .null sb sba va hxab, evalBlock_append (callAt net 1) a (b ++ after) .null s0 sa va hxa,
    evalBlock_acc _ (by simp [hb]) va .null, evalBlock_append (callAt net 1) b after .null sa sab w hxba, evalBlock_acc _ hr va .null, evalBlock_acc _ hr w .null]
  obtain ⟨g1, g2, _⟩ := c77_block net after (fun _ => True) sba sab h3 (known_list after fun _ => trivial)
  exact ⟨g1.symm, g2.sent.symm, g2.out.symm, g2.records.symm, fun _ _ => ⟨g2.requests.symm, g2.records.symm, g2.sent.symm, g2.out.symm, fun x hx => (g2.vars x hx).symm⟩⟩

/-- What `am eval` does with an accepted text. -/
theorem evalText_run (net : Net) {text : Str} {items : List (Item F)} (h : Accepted text items) (s : St F) :
    evalText net text s = match runBlock net (exprsOf items) (withItems s items) with
      | (.ok v, s) => sayLine v.display s
      | (.err e, s) => sayLine e s
      | (.panic, s) => (.panic, s)
      | (.hang, s) => (.hang, s) := by
  have he : (items.foldl addItem (⟨[], [], []⟩ : Source F)).exprs = exprsOf items := by simpa using (fold_tables items ⟨[], [], []⟩).1
  have hx := extend_items s.ctx.requests items ⟨[], [], []⟩ (by simp [KeysNodup])
  rw [evalText_ok s (accepted_items h), he]
  unfold Context.extend
  rw [hx]
  rfl

theorem exprsOf_exprs (a : List (Expr F)) : exprsOf (a.map .expr) = a := by
  induction a with
  | nil => rfl
  | cons e a ih => simp [exprsOf, ih]

theorem addRequests_exprs (a : List (Expr F)) : ∀ t, addRequests (a.map .expr) t = t := by
  induction a with
  | nil => intro t; rfl
  | cons e a ih => intro t; exact ih t

/-- C111: the same for `am eval` on two texts that differ only in the order of the two parts. -/
theorem c111_text (net : Net) {text text' : Str} {before after : List (Item F)} {a b : List (Expr F)} (s : St F)
    (h1 : Accepted text (before ++ (a.map .expr ++ (b.map .expr ++ after)))) (h2 : Accepted text' (before ++ (b.map .expr ++ (a.map .expr ++ after))))
    (hi : NoInfluence (addRequests (before ++ after) s.ctx.requests) a b) (ha : a ≠ []) (hb : b ≠ []) (hr : exprsOf after ≠ [])
    (hok : ∀ v s0, runBlock net (exprsOf before) (withItems s (before ++ after)) = (.ok v, s0) → ∃ w, (runBlock net b s0).1 = .ok w) :
    (evalText net text s).1 = (evalText net text' s).1 ∧ (evalText net text s).2.sent = (evalText net text' s).2.sent ∧
    (evalText net text s).2.out = (evalText net text' s).2.out ∧ (evalText net text s).2.ctx.records = (evalText net text' s).2.ctx.records := by
  have hx : ∀ c d : List (Expr F), exprsOf (before ++ (c.map Item.expr ++ (d.map Item.expr ++ after))) = exprsOf before ++ (c ++ (d ++ exprsOf after)) ∧
      withItems s (before ++ (c.map Item.expr ++ (d.map Item.expr ++ after))) = withItems s (before ++ after) := by
    intro c d
    constructor
    · simp only [exprsOf_append, exprsOf_exprs]
    · unfold withItems
      simp only [addRequests_append, addRequests_exprs]
  rw [evalText_run net h1, evalText_run net h2, (hx a b).1, (hx a b).2, (hx b a).1, (hx b a).2]
  obtain ⟨g1, g2, g3, g4, _⟩ := c111_block net (exprsOf before) a b (exprsOf after) (withItems s (before ++ after)) hi ha hb hr hok
  rcases hx1 : runBlock net (exprsOf before ++ (a ++ (b ++ exprsOf after))) (withItems s (before ++ after)) with ⟨r, t⟩
  rcases hx2 : runBlock net (exprsOf before ++ (b ++ (a ++ exprsOf after))) (withItems s (before ++ after)) with ⟨r', t'⟩
  rw [hx1, hx2] at g1 g2 g3 g4
  dsimp only at g1 g2 g3 g4
  subst g1
  cases r with
  | ok v => exact ⟨rfl, g2, congrArg (fun o => o ++ v.display ++ c!"\n") g3, g4⟩
  | err e => exact ⟨rfl, g2, congrArg (fun o => o ++ e ++ c!"\n") g3, g4⟩
  | panic => exact ⟨rfl, g2, g3, g4⟩
  | hang => exact ⟨rfl, g2, g3, g4⟩

/-- Concrete case: printing and computing next to each other, with a variable that both read. -/
example : NoInfluence ([] : List (Str × (Str × List (Expr F))))
    [.letE c!"x" (.ident c!"n"), .call c!"println" [.str c!"{x}", .ident c!"x"]]
    [.letE c!"y" (.call c!"length" [.ident c!"n"]), .letE c!"z" (.ident c!"y")] where
  left := by
    simp only [KnownList, KnownIn, KnownCall, more, sure, sureList, letsList, lets]
    simp [amGet]
  right := by
    simp only [KnownList, KnownIn, KnownCall, more, sure, sureList, letsList, lets]
    simp [amGet]
  sets := by simp [letsList, lets]
  quiet := by
    intro f hf
    have : f = c!"length" := by simpa [calledList, called] using hf
    subst this
    exact ⟨rfl, by decide, by decide⟩

/-- C111: that neither part sets what the other reads is needed, and so is that one of them sends and prints nothing. -/
theorem c111_needed (net : Net) :
    (runBlock net [.letE c!"x" (.int 1), .letE c!"x" (.int 2), .ident c!"x"] (⟨Context.new, [], []⟩ : St F)).1 = .ok (.int 2) ∧
    (runBlock net [.letE c!"x" (.int 2), .letE c!"x" (.int 1), .ident c!"x"] (⟨Context.new, [], []⟩ : St F)).1 = .ok (.int 1) ∧
    (runBlock net [.call c!"print" [.str c!"a"], .call c!"print" [.str c!"b"]] (⟨Context.new, [], []⟩ : St F)).2.out = c!"ab" ∧
    (runBlock net [.call c!"print" [.str c!"b"], .call c!"print" [.str c!"a"]] (⟨Context.new, [], []⟩ : St F)).2.out = c!"ba" :=
  ⟨rfl, rfl, rfl, rfl⟩

end Am
