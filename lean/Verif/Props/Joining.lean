import Verif.Spec.Joining
import Verif.Proofs.Joining
import Verif.Props.Flow
import Verif.Props.Commands
import Verif.Props.Files
import Verif.Props.Running
import Verif.Props.Exit
/-! # C82: a script given piece by piece does what the whole script does -/
set_option linter.unusedSimpArgs false
set_option linter.unusedSectionVars false
namespace Am
open Spec
variable {F : Type} [Rt F]

/-! ## The tokens and items of a text made of pieces -/

theorem layout_ws_end {c : Char} (hc : isWs c = true) {b : Bool} {a : Str} {ts : List Token} (h : Layout b a ts) (hb : b = true) :
    Layout true (a ++ [c]) ts := by
  induction h with
  | eof ws hw =>
    refine .eof _ (fun x hx => ?_)
    rcases List.mem_append.1 hx with hx | hx
    · exact hw x hx
    · rw [List.mem_singleton.1 hx]; exact hc
  | tok b ws t rest ts hw ht hn _ ih =>
    rw [List.append_assoc]
    refine .tok _ _ _ _ _ hw ht ?_ (ih hb)
    intro x r hr
    cases rest with
    | nil => cases hr; exact extends_ws t _ hc
    | cons y rest => cases hr; exact hn _ _ rfl
  | openString => cases hb
  | openTemplate => cases hb

theorem layout_last {b : Bool} {a : Str} {ts : List Token} (h : Layout b a ts) : ∃ init, ts = init ++ [Token.eof] := by
  rw [c02_layout_unique _ _ _ h]
  obtain ⟨init, e, _⟩ := c01_lex_total a
  exact ⟨init, e⟩

theorem oneItem_starts {ts rest : List Token} {i : Item F} (h : OneItem ts i rest) :
    ∃ t r, ts = t :: r ∧ (starts t.kind = true ∨ t.kind = .Request ∨ t.kind = .Test) := by
  match h with
  | .expr e _ _ hw => obtain ⟨t, r, h1, h2⟩ := whole_starts hw; exact ⟨t, r, h1, .inl h2⟩
  | .request q n m r hq .. => exact ⟨_, _, rfl, .inr (.inl hq)⟩
  | .asserts q n m o c es ts r hq .. => exact ⟨_, _, rfl, .inr (.inl hq)⟩
  | .test q n o c es ts r hq .. => exact ⟨_, _, rfl, .inr (.inr hq)⟩

theorem newStart_fresh {text : Str} {b : Bool} {ts : List Token} {items : List (Item F)} (hl : Layout b text ts) (hp : Program ts items)
    (hn : NewStart text) : Fresh ts := by
  have key : ∀ t r, ts = t :: r → (starts t.kind = true ∨ t.kind = .Request ∨ t.kind = .Test ∨ t.kind = .Eof) →
      (t.kind ≠ .Not ∧ t.kind ≠ .Sub ∧ t.kind ≠ .Lp ∧ t.kind ≠ .Ls) → Fresh ts := by
    intro t r hts h1 h2
    refine ⟨t, r, hts, ?_, ?_, ?_⟩
    all_goals
      obtain ⟨k, l⟩ := t
      dsimp only at h1 h2 ⊢
      cases k <;> simp_all [starts, level, tableLevel]
  have hd : ∃ t r, ts = t :: r ∧ (starts t.kind = true ∨ t.kind = .Request ∨ t.kind = .Test ∨ t.kind = .Eof) := by
    cases hp with
    | nil t ht => exact ⟨t, [], rfl, .inr (.inr (.inr ht))⟩
    | cons i is ts us h1 _ =>
      obtain ⟨t, r, h2, h3⟩ := oneItem_starts h1
      refine ⟨t, r, h2, ?_⟩
      rcases h3 with h3 | h3 | h3
      · exact .inl h3
      · exact .inr (.inl h3)
      · exact .inr (.inr (.inl h3))
  obtain ⟨t, r, hts, h1⟩ := hd
  refine key t r hts h1 ?_
  subst hts
  generalize hx : t :: r = x at hl
  cases hl with
  | eof ws hw => cases hx; simp [Token.eof]
  | openString => cases hx; simp
  | openTemplate => cases hx; simp
  | tok _ ws t' rest ts' hw ht _ _ =>
    injection hx with hx1 hx2
    subst hx1
    obtain ⟨c, u, hs, hc⟩ := spell_head ht
    have hc' := hn ws c (u ++ rest) (by rw [hs]; simp) hw hc
    obtain ⟨k, l⟩ := t
    refine ⟨?_, ?_, ?_, ?_⟩
    all_goals
      intro hk
      dsimp only at hk
      subst hk
      simp only [TokenOk, fixedText, Option.some.injEq] at ht
      subst ht
      simp only [spell, List.cons.injEq] at hs
      rw [← hs.1] at hc'
      exact hc' (by decide)

/-- Two pieces, the first ending in white space. -/
theorem join_two {a b : Str} {is js : List (Item F)} (ha : Standalone a is) (hws : a = [] ∨ ∃ p c, a = p ++ [c] ∧ isWs c = true)
    {closed : Bool} {us : List Token} (hb : Layout closed b us) (hj : Program us js) (hn : NewStart b) :
    ∃ ts, Layout closed (a ++ b) ts ∧ Program ts (is ++ js) := by
  obtain ⟨ts, hl, hp⟩ := ha
  refine ⟨_, layout_append hl rfl hb hws, ?_⟩
  obtain ⟨init, rfl⟩ := layout_last hl
  rw [List.dropLast_concat]
  exact program_tail rfl (newStart_fresh hb hj hn) hj hp init rfl

theorem newStart_append {a b : Str} (ha : NewStart a) (hb : NewStart b) : NewStart (a ++ b) := by
  intro ws c r h hw hc
  rcases List.append_eq_append_iff.1 h with ⟨u, h1, h2⟩ | ⟨u, h1, h2⟩
  · refine hb u c r h2 (fun x hx => hw x ?_) hc
    rw [h1]; exact List.mem_append_right _ hx
  · cases u with
    | nil => exact hb [] c r h2.symm (by simp [AllWs]) hc
    | cons x u =>
      simp only [List.cons_append, List.cons.injEq] at h2
      obtain ⟨rfl, h2⟩ := h2
      exact ha ws c u h1 hw hc

theorem newStart_line {l : Str} (h : NewStart l) : NewStart (l ++ ['\n']) := by
  refine newStart_append h ?_
  intro ws c r h hw hc
  cases ws with
  | nil => cases h; cases hc
  | cons x ws => simp at h

/-- C82, texts: pieces that are programs of their own and do not begin with `!`, `-`, `(` or `[` are together the program with the items of
all of them. -/
theorem c82_joined (pieces : List (Str × List (Item F))) (h : ∀ p ∈ pieces, Standalone p.1 p.2 ∧ NewStart p.1) :
    Standalone (unlines (pieces.map Prod.fst)) (pieces.flatMap Prod.snd) ∧ NewStart (unlines (pieces.map Prod.fst)) := by
  induction pieces with
  | nil =>
    refine ⟨⟨_, .eof [] (by simp [AllWs]), .nil _ rfl⟩, ?_⟩
    intro ws c r h
    cases ws <;> cases h
  | cons p ps ih =>
    obtain ⟨h1, h2⟩ := ih (fun q hq => h q (List.mem_cons_of_mem _ hq))
    obtain ⟨⟨ts, hl, hp⟩, hn⟩ := h p List.mem_cons_self
    have hx : unlines ((p :: ps).map Prod.fst) = (p.1 ++ ['\n']) ++ unlines (ps.map Prod.fst) := by simp [unlines]
    rw [hx]
    refine ⟨?_, newStart_append (newStart_line hn) h2⟩
    obtain ⟨us, h3, h4⟩ := h1
    exact join_two ⟨ts, layout_ws_end rfl hl rfl, hp⟩ (.inr ⟨p.1, '\n', rfl, rfl⟩) h3 h4 h2

theorem files_joined (items : List Str → List (Item F)) (fs : List (List Str × Str))
    (h : ∀ f ∈ fs, Standalone f.2 (items f.1) ∧ NewStart f.2 ∧ (f.2 = [] ∨ ∃ p c, f.2 = p ++ [c] ∧ isWs c = true)) :
    Standalone (fs.flatMap Prod.snd) (fs.flatMap fun f => items f.1) ∧ NewStart (fs.flatMap Prod.snd) := by
  induction fs with
  | nil =>
    refine ⟨⟨_, .eof [] (by simp [AllWs]), .nil _ rfl⟩, ?_⟩
    intro ws c r h
    cases ws <;> cases h
  | cons f fs ih =>
    obtain ⟨⟨us, h3, h4⟩, h2⟩ := ih (fun q hq => h q (List.mem_cons_of_mem _ hq))
    obtain ⟨hs, hn, hw⟩ := h f List.mem_cons_self
    rw [List.flatMap_cons, List.flatMap_cons]
    exact ⟨join_two hs hw h3 h4 h2, newStart_append hn h2⟩

/-- C82, directories: if every source file is a program of its own, ends in white space and does not begin with `!`, `-`, `(` or `[`, then what
`am test` reads is the program with the items of all files, in the order of their paths. -/
theorem c82_directory (root : Str) (files : Node) (items : List Str → List (Item F)) (hd : Distinct files) (hr : ∀ path, ¬ Below root files path none)
    (hf : ∀ path c, Below root files path (some c) → Standalone c (items path) ∧ NewStart c ∧ (c = [] ∨ ∃ p w, c = p ++ [w] ∧ isWs w = true)) :
    ∃ fs : List (List Str × Str), (∀ path c, (path, c) ∈ fs ↔ Below root files path (some c)) ∧ (fs.Pairwise fun a b => PathLt a.1 b.1) ∧
      readToString root files = .ok (fs.flatMap Prod.snd) ∧ Accepted (fs.flatMap Prod.snd) (fs.flatMap fun f => items f.1) := by
  obtain ⟨fs, h1, h2, h3⟩ := c57_read root files hd fun path c h hc => hr path (hc ▸ h)
  obtain ⟨⟨ts, h4, h5⟩, _⟩ := files_joined items fs (fun f hm => hf f.1 f.2 ((h1 f.1 f.2).1 hm))
  exact ⟨fs, h1, h2, h3, true, ts, h4, h5⟩

/-! ## Evaluation and the request table -/

mutual
theorem evalExpr_names (call call' : Call F) : ∀ (e : Expr F), (∀ f ∈ called e, call f = call' f) → evalExpr call e = evalExpr call' e
  | .int _, _ | .float _, _ | .bool _, _ | .str _, _ => by simp only [evalExpr]
  | .ident _, _ => rfl
  | .arr items, h => by simp only [called] at h; simp only [evalExpr, evalList_names call call' items h]
  | .map pairs, h => by simp only [called] at h; simp only [evalExpr, evalPairs_names call call' pairs h]
  | .index l i, h => by
    simp only [called, List.mem_append] at h
    simp only [evalExpr, evalExpr_names call call' l (fun f hf => h f (.inl hf)), evalExpr_names call call' i (fun f hf => h f (.inr hf))]
  | .field l n, h => by simp only [called] at h; simp only [evalExpr, evalExpr_names call call' l h]
  | .letE n v, h => by simp only [called] at h; simp only [evalExpr, evalExpr_names call call' v h]
  | .unary t r, h => by simp only [called] at h; simp only [evalExpr, evalExpr_names call call' r h]
  | .binary t l r, h => by
    simp only [called, List.mem_append] at h
    simp only [evalExpr, evalExpr_names call call' l (fun f hf => h f (.inl hf)), evalExpr_names call call' r (fun f hf => h f (.inr hf))]
  | .paren v, h => by simp only [called] at h; simp only [evalExpr, evalExpr_names call call' v h]
  | .ifE c t e, h => by
    simp only [called, List.mem_append] at h
    simp only [evalExpr, evalExpr_names call call' c (fun f hf => h f (.inl hf)), evalBlock_names call call' t (fun f hf => h f (.inr (.inl hf))),
      evalBlock_names call call' e (fun f hf => h f (.inr (.inr hf)))]
  | .call f args, h => by
    simp only [called, List.mem_cons] at h
    simp only [evalExpr, evalList_names call call' args (fun f hf => h f (.inr hf)), h f (.inl rfl)]
termination_by structural e => e
theorem evalList_names (call call' : Call F) : ∀ (l : List (Expr F)), (∀ f ∈ calledList l, call f = call' f) → evalList call l = evalList call' l
  | [], _ => by simp only [evalList]
  | e :: l, h => by
    simp only [calledList, List.mem_append] at h
    simp only [evalList, evalExpr_names call call' e (fun f hf => h f (.inl hf)), evalList_names call call' l (fun f hf => h f (.inr hf))]
termination_by structural l => l
theorem evalPairs_names (call call' : Call F) : ∀ (l : List (Expr F × Expr F)), (∀ f ∈ calledPairs l, call f = call' f) →
    ∀ acc, evalPairs call acc l = evalPairs call' acc l
  | [], _ => by intro acc; simp only [evalPairs]
  | (k, v) :: l, h => by
    intro acc
    simp only [calledPairs, List.mem_append] at h
    simp only [evalPairs, evalExpr_names call call' k (fun f hf => h f (.inl hf)), evalExpr_names call call' v (fun f hf => h f (.inr (.inl hf))),
      evalPairs_names call call' l (fun f hf => h f (.inr (.inr hf)))]
termination_by structural l => l
theorem evalBlock_names (call call' : Call F) : ∀ (l : List (Expr F)), (∀ f ∈ calledList l, call f = call' f) →
    ∀ acc, evalBlock call acc l = evalBlock call' acc l
  | [], _ => by intro acc; simp only [evalBlock]
  | e :: l, h => by
    intro acc
    simp only [calledList, List.mem_append] at h
    simp only [evalBlock, evalExpr_names call call' e (fun f hf => h f (.inl hf)), evalBlock_names call call' l (fun f hf => h f (.inr hf))]
termination_by structural l => l
end

/-- The same state apart from the request tables, which are `R` and `R'`, and from what was printed before, `P` and `Q`. -/
structure Near (R R' : List (Str × (Str × List (Expr F)))) (P Q : Str) (s t : St F) : Prop where
  left : s.ctx.requests = R
  right : t.ctx.requests = R'
  inner : s.ctx.inner = t.ctx.inner
  records : s.ctx.records = t.ctx.records
  sent : s.sent = t.sent
  out : ∃ o, s.out = P ++ o ∧ t.out = Q ++ o

variable {R R' : List (Str × (Str × List (Expr F)))} {P Q : Str}

/-- Started in such states, `x` and `y` do the same and end in such states. -/
def Nears (R R' : List (Str × (Str × List (Expr F)))) (P Q : Str) {α : Type} (_ : Nat) (x y : M F α) : Prop :=
  ∀ s t, Near R R' P Q s t → (x s).1 = (y t).1 ∧ Near R R' P Q (x s).2 (y t).2

theorem nears_closed : Closed (F := F) (fun {_} n x y => Nears R R' P Q n x y) where
  pure a s t h := ⟨rfl, h⟩
  bind {α β m k x y f g} hx hf s t h := by
    obtain ⟨h1, h2⟩ := hx s t h
    cases hr : x s with | mk r s' =>
    cases hr' : y t with | mk r' t' =>
    rw [hr, hr'] at h1 h2
    dsimp only at h1 h2
    subst h1
    cases r with
    | ok a => rw [M.bind_ok hr, M.bind_ok hr']; exact hf a s' t' h2
    | err e => rw [M.bind_err hr, M.bind_err hr']; exact ⟨rfl, h2⟩
    | panic => rw [M.bind_panic hr, M.bind_panic hr']; exact ⟨rfl, h2⟩
    | hang => rw [M.bind_hang hr, M.bind_hang hr']; exact ⟨rfl, h2⟩
  mono _ h := h
  ident n s t h := by
    simp only [readVar]
    have : s.ctx.get n = t.ctx.get n := by simp only [Context.get, h.inner]
    rw [this]
    cases t.ctx.get n with
    | some v => exact ⟨rfl, h⟩
    | none => exact ⟨rfl, h⟩
  lift hh hp s t h := ⟨rfl, h⟩

theorem nears_panic : AllowsPanic (F := F) (fun {_} n x y => Nears R R' P Q n x y) := fun _ _ _ h => ⟨rfl, h⟩

theorem nears_write (n : Str) (v : Value F) : Nears R R' P Q 0 (writeVar n v) (writeVar n v) := by
  intro s t h
  refine ⟨rfl, h.left, h.right, ?_, h.records, h.sent, h.out⟩
  show (s.ctx.set n v).inner = (t.ctx.set n v).inner
  simp only [Context.set, h.inner]

theorem nears_out (o : Str) : Nears (F := F) R R' P Q 0 (M.modify fun s => { s with out := s.out ++ o }) (M.modify fun s => { s with out := s.out ++ o }) := by
  intro s t h
  obtain ⟨u, h1, h2⟩ := h.out
  refine ⟨rfl, h.left, h.right, h.inner, h.records, h.sent, u ++ o, ?_, ?_⟩
  · show s.out ++ o = _; rw [h1, List.append_assoc]
  · show t.out ++ o = _; rw [h2, List.append_assoc]

theorem nears_request (net : Net) (name message : Str) (asserts : List (Expr F)) :
    Nears R R' P Q 1 (callRequest net (callAt net 0) name message asserts) (callRequest net (callAt net 0) name message asserts) := by
  intro s t h
  have hr : render s.ctx message = render t.ctx message := by
    obtain ⟨ps, h1, h2, h3⟩ := c27_render s.ctx message
    obtain ⟨qs, g1, _, g3⟩ := c27_render t.ctx message
    rw [h2 qs g1] at g3
    rw [h3, g3]
    refine fillBy_same (fun x _ => ?_)
    simp only [h.inner]
  obtain ⟨o, ho1, ho2⟩ := h.out
  have hsent := h.sent
  obtain ⟨sc, ss, so⟩ := s
  obtain ⟨tc, ts, to⟩ := t
  dsimp only at hr hsent ho1 ho2
  subst hsent ho1 ho2
  have base : ∀ {c c' : Context F} {sent : List Str} {u : Str}, c.requests = R → c'.requests = R' → c.inner = c'.inner → c.records = c'.records →
      Near R R' P Q ⟨c, sent, P ++ u⟩ ⟨c', sent, Q ++ u⟩ := fun h1 h2 h3 h4 => ⟨h1, h2, h3, h4, rfl, _, rfl, rfl⟩
  have h1 := h.left
  have h2 := h.right
  have h3 := h.inner
  have h4 := h.records
  dsimp only at h1 h2 h3 h4
  unfold callRequest
  rw [M.bind_ok (m := M.get) (s := ⟨sc, ss, P ++ o⟩) rfl, M.bind_ok (m := M.get) (s := ⟨tc, ss, Q ++ o⟩) rfl]
  dsimp only
  rw [← hr, M.bind_ok (M.modify_run _ _), M.bind_ok (M.modify_run _ _)]
  cases hs : send net ss (render sc message) with
  | err e => rw [M.bind_err (M.lift_run _ _), M.bind_err (M.lift_run _ _)]; exact ⟨rfl, base h1 h2 h3 h4⟩
  | panic => rw [M.bind_panic (M.lift_run _ _), M.bind_panic (M.lift_run _ _)]; exact ⟨rfl, base h1 h2 h3 h4⟩
  | hang => rw [M.bind_hang (M.lift_run _ _), M.bind_hang (M.lift_run _ _)]; exact ⟨rfl, base h1 h2 h3 h4⟩
  | ok p =>
    obtain ⟨rq, rs, tm, e⟩ := p
    rw [M.bind_ok (M.lift_run _ _), M.bind_ok (M.lift_run _ _)]
    dsimp only
    cases hm : rs.toMap (F := F) with
    | err e => rw [M.bind_err (M.lift_run _ _), M.bind_err (M.lift_run _ _)]; exact ⟨rfl, base h1 h2 h3 h4⟩
    | panic => rw [M.bind_panic (M.lift_run _ _), M.bind_panic (M.lift_run _ _)]; exact ⟨rfl, base h1 h2 h3 h4⟩
    | hang => rw [M.bind_hang (M.lift_run _ _), M.bind_hang (M.lift_run _ _)]; exact ⟨rfl, base h1 h2 h3 h4⟩
    | ok map =>
      rw [M.bind_ok (M.lift_run _ _), M.bind_ok (M.lift_run _ _)]
      obtain ⟨r, c, u, _, _, _, hl⟩ := evalAsserts_local (F := F) net net 0 0 asserts (Context.ofMap map) rfl
      have he1 := (hl (ss ++ [render sc message]) (P ++ o)).1
      have he2 := (hl (ss ++ [render sc message]) (Q ++ o)).1
      rw [List.append_assoc] at he1 he2
      cases r with
      | err e =>
        rw [M.bind_err (s' := ⟨sc, ss ++ [render sc message], P ++ (o ++ u)⟩) (by simp only [inLocal, he1]; rfl),
          M.bind_err (s' := ⟨tc, ss ++ [render sc message], Q ++ (o ++ u)⟩) (by simp only [inLocal, he2]; rfl)]
        exact ⟨rfl, base h1 h2 h3 h4⟩
      | panic =>
        rw [M.bind_panic (s' := ⟨sc, ss ++ [render sc message], P ++ (o ++ u)⟩) (by simp only [inLocal, he1]),
          M.bind_panic (s' := ⟨tc, ss ++ [render sc message], Q ++ (o ++ u)⟩) (by simp only [inLocal, he2])]
        exact ⟨rfl, base h1 h2 h3 h4⟩
      | hang =>
        rw [M.bind_hang (s' := ⟨sc, ss ++ [render sc message], P ++ (o ++ u)⟩) (by simp only [inLocal, he1]),
          M.bind_hang (s' := ⟨tc, ss ++ [render sc message], Q ++ (o ++ u)⟩) (by simp only [inLocal, he2])]
        exact ⟨rfl, base h1 h2 h3 h4⟩
      | ok as =>
        rw [M.bind_ok (a := (as, c.inner)) (s' := ⟨sc, ss ++ [render sc message], P ++ (o ++ u)⟩) (by simp only [inLocal, he1]),
          M.bind_ok (a := (as, c.inner)) (s' := ⟨tc, ss ++ [render sc message], Q ++ (o ++ u)⟩) (by simp only [inLocal, he2])]
        refine ⟨rfl, ?_⟩
        exact base (c := sc.push ⟨name, tm, rq, rs, as, e⟩) (c' := tc.push ⟨name, tm, rq, rs, as, e⟩) h1 h2 h3 (by simp only [Context.push, h4])

theorem nears_call (net : Net) (f : Str) (vs : List (Value F)) (hf : amGet f R = amGet f R') :
    Nears R R' P Q 1 (callAt net 1 f vs) (callAt net 1 f vs) := by
  intro s t h
  cases hr : amGet f R with
  | none =>
    rw [callAt_none net vs (show s.ctx.request f = none by rw [Context.request, h.left, hr]),
      callAt_none net vs (show t.ctx.request f = none by rw [Context.request, h.right, ← hf, hr])]
    exact callNative_closed (P := fun {_} n x y => Nears R R' P Q n x y) nears_closed nears_out f vs s t h
  | some p =>
    obtain ⟨message, asserts⟩ := p
    rw [callAt_some net vs (show s.ctx.request f = some (message, asserts) by rw [Context.request, h.left, hr]),
      callAt_some net vs (show t.ctx.request f = some (message, asserts) by rw [Context.request, h.right, ← hf, hr])]
    exact nears_request net f message asserts s t h

/-- Evaluation looks up only the names it calls, and does not look at what was printed before. -/
theorem block_near (net : Net) (block : List (Expr F)) (acc : Value F) (hf : ∀ f ∈ calledList block, amGet f R = amGet f R') :
    Nears R R' P Q 0 (evalBlock (callAt net 1) acc block) (evalBlock (callAt net 1) acc block) := by
  have hc : ∀ f ∈ calledList block, (callAt net 1 : Call F) f = (fun g vs => if g ∈ calledList block then callAt net 1 g vs else M.lift .panic : Call F) f := by
    intro f h
    funext vs
    dsimp only
    rw [if_pos h]
  rw [evalBlock_names _ _ block hc acc]
  refine evalBlock_closed (P := fun {_} n x y => Nears R R' P Q n x y) nears_closed ?_ block acc (fun n _ v => nears_write n v) (fun _ _ => .inl nears_panic)
  intro f vs
  split
  · rename_i h; exact nears_call net f vs (hf f h)
  · exact nears_panic _

theorem addRequests_append (is js : List (Item F)) : ∀ t, addRequests (is ++ js) t = addRequests js (addRequests is t) := by
  induction is with
  | nil => intro t; rfl
  | cons i is ih => intro t; cases i <;> exact ih _

theorem exprsOf_append (is js : List (Item F)) : exprsOf (is ++ js) = exprsOf is ++ exprsOf js := by
  induction is with
  | nil => rfl
  | cons i is ih => cases i <;> simp [exprsOf, ih]

theorem amGet_addRequests {n : Str} (js : List (Item F)) (hn : n ∉ defined js) : ∀ t, amGet n (addRequests js t) = amGet n t := by
  induction js with
  | nil => intro t; rfl
  | cons i is ih =>
    intro t
    cases i with
    | expr e => exact ih hn t
    | test m b => exact ih hn t
    | request m x as =>
      simp only [defined, List.mem_cons, not_or] at hn
      simp only [addRequests]
      rw [ih hn.2, amGet_insert, if_neg (by simpa using fun h => hn.1 h.symm)]

theorem defined_flat {n : Str} (l : List (List (Item F))) (h : n ∈ defined l.flatten) : ∃ is ∈ l, n ∈ defined is := by
  induction l with
  | nil => cases h
  | cons a l ih =>
    have : ∀ a b : List (Item F), defined (a ++ b) = defined a ++ defined b := by
      intro a b
      induction a with
      | nil => rfl
      | cons i a ih => cases i <;> simp [defined, ih]
    rw [List.flatten_cons, this, List.mem_append] at h
    rcases h with h | h
    · exact ⟨a, List.mem_cons_self, h⟩
    · obtain ⟨b, hb, h⟩ := ih h
      exact ⟨b, List.mem_cons_of_mem _ hb, h⟩

theorem evalBlock_start (call : Call F) {l : List (Expr F)} (h : l ≠ []) (a b : Value F) : evalBlock call a l = evalBlock call b l := by
  cases l with
  | nil => exact absurd rfl h
  | cons => simp only [evalBlock]

/-- The items of the pieces as one block, next to the pieces one after the other. The requests of the `later` pieces are already known. -/
theorem pieces_block (net : Net) {s s1 : St F} {init : List (List (Item F))} {outs : List (Str × Value F)} (h : RunsPieces net s init outs s1)
    (last : List (Item F)) (later : List (List (Item F))) : ∀ (ctx : Context F) (Q : Str), Proper (.map s.ctx.inner) → InOrder (init ++ last :: later) →
      ctx.inner = s.ctx.inner → ctx.records = s.ctx.records → ctx.requests = addRequests (init ++ last :: later).flatten s.ctx.requests →
      exprsOf last ≠ [] → ∀ acc r s2, RunsBlock net .null (exprsOf last) (withItems s1 last) r s2 →
      ∃ o t, s2.out = s1.out ++ o ∧ evalBlock (callAt net 1) acc (exprsOf (init ++ [last]).flatten) ⟨ctx, s.sent, Q⟩ = (r, t) ∧
        t.ctx = (withItems s2 later.flatten).ctx ∧ t.sent = s2.sent ∧ t.out = Q ++ (outs.map Prod.fst).flatten ++ o := by
  induction h with
  | nil s =>
    intro ctx Q hp hord h1 h2 h3 hne acc r s2 h
    rw [List.nil_append] at hord h3
    cases hord with
    | cons hord hord' =>
    have h := (c63_block net _ (withItems s last) _ _ hp).1 h
    rw [List.flatten_cons, addRequests_append] at h3
    have hn : Near (addRequests last s.ctx.requests) ctx.requests s.out Q (withItems s last) ⟨ctx, s.sent, Q⟩ :=
      ⟨rfl, rfl, h1.symm, h2.symm, rfl, [], by simp [withItems], by simp⟩
    have hnames : ∀ f ∈ calledList (exprsOf last), amGet f (addRequests last s.ctx.requests) = amGet f ctx.requests := by
      intro f hf
      rw [h3]
      refine (amGet_addRequests _ (fun hd => ?_) _).symm
      obtain ⟨later, hl, hd⟩ := defined_flat _ hd
      exact hord later hl f hd hf
    obtain ⟨g1, g2⟩ := block_near (P := s.out) (Q := Q) net (exprsOf last) .null hnames _ _ hn
    rw [show evalBlock (callAt net 1) .null (exprsOf last) (withItems s last) = (r, s2) from h] at g1 g2
    dsimp only at g1 g2
    obtain ⟨o, ho1, ho2⟩ := g2.out
    have hx : exprsOf ([] ++ [last]).flatten = exprsOf last := by simp
    rw [hx, evalBlock_start _ hne acc .null]
    refine ⟨o, _, ho1, Prod.ext g1.symm rfl, ?_, g2.sent.symm, by rw [ho2]; simp⟩
    have e1 := g2.inner
    have e2 := g2.records
    have e3 := g2.right
    rw [h3, ← g2.left] at e3
    cases ha : (evalBlock (callAt net 1) .null (exprsOf last) ⟨ctx, s.sent, Q⟩).2.ctx
    cases hb : s2.ctx
    rw [ha, hb] at e1 e2 e3
    dsimp only at e1 e2 e3
    simp only [withItems, hb]
    rw [e1, e2, e3]
  | @cons s s1 s' items rest o v outs hb hout _ ih =>
    intro ctx Q hp hord h1 h2 h3 hne acc r s2 h
    rw [List.cons_append] at hord h3
    cases hord with
    | cons hord hord' =>
    have hb := (c63_block net _ (withItems s items) _ _ hp).1 hb
    have hpp := (c63_proper net (exprsOf items) (withItems s items) hp).1
    rw [hb] at hpp
    rw [List.flatten_cons, addRequests_append] at h3
    have hn : Near (addRequests items s.ctx.requests) ctx.requests s.out Q (withItems s items) ⟨ctx, s.sent, Q⟩ :=
      ⟨rfl, rfl, h1.symm, h2.symm, rfl, [], by simp [withItems], by simp⟩
    have hnames : ∀ f ∈ calledList (exprsOf items), amGet f (addRequests items s.ctx.requests) = amGet f ctx.requests := by
      intro f hf
      rw [h3]
      refine (amGet_addRequests _ (fun hd => ?_) _).symm
      obtain ⟨later, hl, hd⟩ := defined_flat _ hd
      exact hord later hl f hd hf
    obtain ⟨g1, g2⟩ := block_near (P := s.out) (Q := Q) net (exprsOf items) .null hnames _ _ hn
    rw [show evalBlock (callAt net 1) .null (exprsOf items) (withItems s items) = (.ok v, s1) from hb] at g1 g2
    dsimp only at g1 g2
    have hrun : ∃ v' t1, evalBlock (callAt net 1) acc (exprsOf items) ⟨ctx, s.sent, Q⟩ = (.ok v', t1) ∧ Near (addRequests items s.ctx.requests) ctx.requests s.out Q s1 t1 := by
      cases he : exprsOf items with
      | nil =>
        rw [he] at g2
        exact ⟨acc, _, rfl, g2⟩
      | cons x l =>
        rw [evalBlock_start _ (by simp) acc .null, ← he]
        exact ⟨v, _, Prod.ext g1.symm rfl, g2⟩
    obtain ⟨v', t1, ht1, hn1⟩ := hrun
    obtain ⟨o1, ho1, ho2⟩ := hn1.out
    have : o1 = o := by
      rw [hout] at ho1
      exact (List.append_cancel_left ho1).symm
    subst this
    have key := ih t1.ctx t1.out hpp hord' hn1.inner.symm hn1.records.symm
      (by rw [hn1.right, h3, show ({ s1 with out := s1.out ++ v.display ++ c!"\n" } : St F).ctx.requests = s1.ctx.requests from rfl, hn1.left]) hne v' r s2 h
    obtain ⟨o', t, k1, k2, k3, k4, k5⟩ := key
    refine ⟨o', t, k1, ?_, k3, k4, ?_⟩
    · rw [List.cons_append, List.flatten_cons, exprsOf_append, evalBlock_append _ _ _ _ _ _ _ ht1]
      have : (⟨t1.ctx, s1.sent, t1.out⟩ : St F) = t1 := by rw [hn1.sent]
      rw [← this]
      exact k2
    · rw [k5, ho2]
      simp

theorem evalBlock_stopped (call : Call F) (es rest : List (Expr F)) : ∀ (acc : Value F) (s s1 : St F) (r : Res (Value F)), (∀ v, r ≠ .ok v) →
    evalBlock call acc es s = (r, s1) → evalBlock call acc (es ++ rest) s = (r, s1) := by
  induction es with
  | nil => intro acc s s1 r hr h; injection h with h1 h2; exact absurd h1.symm (hr _)
  | cons e es ih =>
    intro acc s s1 r hr h
    simp only [evalBlock, List.cons_append] at h ⊢
    match hs : evalExpr call e s with
    | (.ok a, s2) => rw [M.bind_ok hs] at h ⊢; exact ih a s2 s1 r hr h
    | (.err _, s2) => rw [M.bind_err hs] at h ⊢; exact h
    | (.panic, s2) => rw [M.bind_panic hs] at h ⊢; exact h
    | (.hang, s2) => rw [M.bind_hang hs] at h ⊢; exact h

theorem standalone_accepted {text : Str} {items : List (Item F)} (h : Standalone text items) : Accepted text items := by
  obtain ⟨ts, h1, h2⟩ := h
  exact ⟨true, ts, h1, h2⟩

theorem runsPieces_proper (net : Net) {s s1 : St F} {l : List (List (Item F))} {outs : List (Str × Value F)} (h : RunsPieces net s l outs s1)
    (hp : Proper (.map s.ctx.inner)) : Proper (.map s1.ctx.inner) := by
  induction h with
  | nil s => exact hp
  | @cons s s1 s' items rest o v outs hb _ _ ih =>
    have hb := (c63_block net _ (withItems s items) _ _ hp).1 hb
    have hpp := (c63_proper net (exprsOf items) (withItems s items) hp).1
    rw [hb] at hpp
    exact ih hpp

theorem evalText_runs (net : Net) {text : Str} {items : List (Item F)} (s s' : St F) (r : Res (Value F)) (ht : Accepted text items)
    (h : runBlock net (exprsOf items) (withItems s items) = (r, s')) (hp : Proper (.map s.ctx.inner)) {shown : Str} {out : Res Unit} (hs : Shows r shown out) :
    evalText net text s = (out, { s' with out := s'.out ++ shown }) :=
  (evalText_items net text items s _ out (accepted_items ht) hp).2 ⟨r, s', shown, (c63_block net _ (withItems s items) _ _ hp).2 h, hs, rfl⟩

/-- C82 (partial): a script given as one text does what its pieces do when they are given one after the other, as in the REPL: the same variables,
requests, records and messages, the same prints, and the outcome of the last piece is shown. If that is not a value, the `later` pieces are not
evaluated, only their requests are known.

Missing from the full statement: pieces that begin with `!`, `-`, `(` or `[` (`c82_false_minus`), pieces that call a request defined later
(`c82_false_order`), and pieces after one that fails (`c82_false_error`): for those it is false. -/
theorem c82_pieces_partial (net : Net) (init : List (Str × List (Item F))) (last : Str × List (Item F)) (later : List (Str × List (Item F)))
    (s s1 s2 : St F) (outs : List (Str × Value F)) (r : Res (Value F))
    (hpieces : ∀ p ∈ init ++ last :: later, Standalone p.1 p.2 ∧ NewStart p.1) (hord : InOrder ((init ++ last :: later).map Prod.snd))
    (hp : Proper (.map s.ctx.inner)) (hinit : RunsPieces net s (init.map Prod.snd) outs s1) (hne : exprsOf last.2 ≠ [])
    (hlast : RunsBlock net .null (exprsOf last.2) (withItems s1 last.2) r s2) (hr : later = [] ∨ ∀ v, r ≠ .ok v) :
    ∃ shown out o, Shows r shown out ∧ s2.out = s1.out ++ o ∧
      evalText net last.1 s1 = (out, { s2 with out := s1.out ++ o ++ shown }) ∧
      evalText net (unlines ((init ++ last :: later).map Prod.fst)) s =
        (out, { withItems s2 (later.flatMap Prod.snd) with out := s.out ++ (outs.map Prod.fst).flatten ++ o ++ shown }) := by
  have hshow : ∃ shown out, Shows r shown out := by
    cases r with
    | ok v => exact ⟨_, _, .value v⟩
    | err e => exact ⟨_, _, .error e⟩
    | panic => exact ⟨_, _, .crash⟩
    | hang => exact ⟨_, _, .endless⟩
  obtain ⟨shown, out, hs⟩ := hshow
  obtain ⟨hall, _⟩ := c82_joined _ hpieces
  have hp1 := runsPieces_proper net hinit hp
  have hl := (c63_block net _ (withItems s1 last.2) _ _ hp1).1 hlast
  have hfl : (init ++ last :: later).flatMap Prod.snd = (init.map Prod.snd ++ last.2 :: later.map Prod.snd).flatten := by
    simp [List.flatMap_def]
  rw [hfl] at hall
  obtain ⟨o, t, k1, k2, k3, k4, k5⟩ := pieces_block net hinit last.2 (later.map Prod.snd) (withItems s (init.map Prod.snd ++ last.2 :: later.map Prod.snd).flatten).ctx s.out hp
    (by simpa using hord) rfl rfl rfl hne .null r s2 hlast
  have hrun : runBlock net (exprsOf (init.map Prod.snd ++ last.2 :: later.map Prod.snd).flatten) (withItems s (init.map Prod.snd ++ last.2 :: later.map Prod.snd).flatten) = (r, t) := by
    have he : (init.map Prod.snd ++ last.2 :: later.map Prod.snd).flatten = (init.map Prod.snd ++ [last.2]).flatten ++ (later.map Prod.snd).flatten := by simp
    show evalBlock (callAt net 1) .null _ _ = _
    rcases hr with rfl | hr
    · rw [show (init.map Prod.snd ++ last.2 :: ([] : List (Str × List (Item F))).map Prod.snd) = init.map Prod.snd ++ [last.2] from rfl] at k2 ⊢
      exact k2
    · conv => lhs; arg 3; rw [he, exprsOf_append]
      exact evalBlock_stopped _ _ _ _ _ _ _ hr k2
  refine ⟨shown, out, o, hs, k1, ?_, ?_⟩
  · rw [evalText_runs net s1 s2 r (standalone_accepted (hpieces last (by simp)).1) hl hp1 hs, k1]
  · rw [evalText_runs net s t r (standalone_accepted hall) hrun hp hs]
    obtain ⟨tc, tsn, tout⟩ := t
    dsimp only at k3 k4 k5
    subst k3 k4 k5
    simp [withItems, List.flatMap_def]

/-- C82: giving the pieces one after the other is what the REPL does with lines. -/
theorem c82_session (net : Net) (lines : List (Str × List (Item F))) (s s1 : St F) (outs : List (Str × Value F))
    (hl : ∀ p ∈ lines, Accepted p.1 p.2 ∧ p.1 ≠ c!"exit" ∧ ¬ Blank p.1) (hp : Proper (.map s.ctx.inner))
    (h : RunsPieces net s (lines.map Prod.snd) outs s1) : Session net s (lines.map fun p => .line p.1) s1 := by
  induction lines generalizing s outs with
  | nil => cases h; exact .nil _
  | cons p lines ih =>
    rw [List.map_cons] at h
    generalize hx : p.2 = items at h
    cases h with
    | @cons _ s2 _ _ _ o v outs hb ho hrest =>
      subst hx
      obtain ⟨h1, h2, h3⟩ := hl p List.mem_cons_self
      have hb := (c63_block net _ (withItems s p.2) _ _ hp).1 hb
      have hpp := (c63_proper net (exprsOf p.2) (withItems s p.2) hp).1
      rw [hb] at hpp
      have hparse := accepted_items h1
      have he : (p.2.foldl addItem (⟨[], [], []⟩ : Source F)).exprs = exprsOf p.2 := by simpa using (fold_tables p.2 ⟨[], [], []⟩).1
      have hx : s.ctx.extend (p.2.foldl addItem (⟨[], [], []⟩ : Source F)).requests = (withItems s p.2).ctx := by
        unfold Context.extend
        rw [extend_items s.ctx.requests p.2 ⟨[], [], []⟩ (by simp [KeysNodup])]
        rfl
      refine .value (v := v) (s1 := s2) h2 h3 hparse ?_ (ih _ _ (fun q hq => hl q (List.mem_cons_of_mem _ hq)) hpp hrest)
      rw [he, hx]
      exact hb

theorem layout_noQuote {b : Bool} {a : Str} {ts : List Token} (h : Layout b a ts) (h1 : '"' ∉ a) (h2 : '`' ∉ a) : b = true := by
  induction h with
  | eof => rfl
  | tok b ws t rest ts _ _ _ _ ih => exact ih (fun h => h1 (by simp [h])) (fun h => h2 (by simp [h]))
  | openString => simp at h1
  | openTemplate => simp at h2

theorem standalone_noQuote {text : Str} {items : List (Item F)} (h1 : '"' ∉ text) (h2 : '`' ∉ text) (h : Program (segment text) items) :
    Standalone text items := by
  obtain ⟨b, hl⟩ := c02_lex_lossless text
  have := layout_noQuote hl h1 h2
  subst this
  exact ⟨_, hl, h⟩

theorem newStart_first {c : Char} {r : Str} (h1 : isWs c = false) (h2 : c ∉ c!"!-([") : NewStart (c :: r) := by
  intro ws d u h hw _
  cases ws with
  | nil => cases h; exact h2
  | cons x ws => cases h; rw [hw c (by simp)] at h1; cases h1

/-- Concrete case for `c82_pieces_partial`: the pieces `let x = 1` and `x / 2`. -/
example (net : Net) : ∃ is js : List (Item F), (∀ p ∈ [(c!"let x = 1", is), (c!"x / 2", js)], Standalone p.1 p.2 ∧ NewStart p.1) ∧
    InOrder [is, js] ∧ (∃ s1, RunsPieces net ⟨Context.new, [], []⟩ [is] [([], .int 1)] s1) ∧ exprsOf js ≠ [] := by
  have e0 : Ends 0 [Token.eof] := ⟨_, [], rfl, by simp [Token.eof, level, tableLevel]⟩
  have h1 : Standalone (F := F) c!"let x = 1" [.expr (.letE c!"x" (.int 1))] := by
    refine standalone_noQuote (by decide) (by decide) ?_
    refine .cons _ _ _ _ (.expr _ _ [Token.eof] ?_) (.nil Token.eof rfl)
    refine .mk _ 255 _ _ _ [Token.eof] _ ?_ (.nil _ _ _) ⟨_, [], rfl, by simp [Token.eof, level, tableLevel]⟩
    exact .letE 0 _ ⟨.Ident, c!"x"⟩ _ _ _ [Token.eof] rfl rfl rfl (.mk _ 0 _ _ _ [Token.eof] _ (.int _ _ _ _ rfl (parseI64_iff.1 rfl)) (.nil _ _ _) e0)
  have h2 : Standalone (F := F) c!"x / 2" [.expr (.binary ⟨.Div, c!"/"⟩ (.ident c!"x") (.int 2))] := by
    refine standalone_noQuote (by decide) (by decide) ?_
    refine .cons _ _ _ _ (.expr _ _ [Token.eof] ?_) (.nil Token.eof rfl)
    refine .mk _ 0 _ _ _ _ _ (.ident _ ⟨.Ident, c!"x"⟩ _ rfl) (.binary _ ⟨.Div, c!"/"⟩ _ _ _ _ [Token.eof] _ (by simp [tableLevel]) ?_ (.nil _ _ _)) e0
    exact .mk _ _ _ _ _ [Token.eof] _ (.int _ _ _ _ rfl (parseI64_iff.1 rfl)) (.nil _ _ _) ⟨_, [], rfl, by simp [Token.eof, level, tableLevel]⟩
  refine ⟨[.expr (.letE c!"x" (.int 1))], [.expr (.binary ⟨.Div, c!"/"⟩ (.ident c!"x") (.int 2))], ?_, .cons (fun l hl => ?_) (.cons (fun l hl => nomatch hl) .nil), ?_, ?_⟩
  · intro p hp
    simp only [List.mem_cons, List.not_mem_nil, or_false] at hp
    rcases hp with rfl | rfl
    · exact ⟨h1, newStart_first (by decide) (by decide)⟩
    · exact ⟨h2, newStart_first (by decide) (by decide)⟩
  · rw [List.mem_singleton.1 hl]
    intro n hn
    cases hn
  · exact ⟨_, .cons (o := []) ((c63_block net _ _ _ _ proper_empty).2 rfl) rfl (.nil _)⟩
  · simp [exprsOf]

/-- Concrete case for `c82_directory`: a directory with the empty file `a.fan` and `b.fan` with the text `x` on a line. -/
example : ∀ path c, Below c!"d" (.dir [(c!"a.fan", .file (some [])), (c!"b.fan", .file (some c!"x\n"))]) path (some c) →
    Standalone c ((fun p => if p = [c!"b.fan"] then [.expr (.ident c!"x")] else []) path : List (Item F)) ∧ NewStart c ∧
      (c = [] ∨ ∃ p w, c = p ++ [w] ∧ isWs w = true) := by
  intro path c h
  have h1 : Standalone (F := F) c!"x\n" [.expr (.ident c!"x")] := by
    refine standalone_noQuote (by decide) (by decide) ?_
    refine .cons _ _ _ _ (.expr _ _ [Token.eof] ?_) (.nil Token.eof rfl)
    exact .mk _ 0 _ _ _ [Token.eof] _ (.ident _ ⟨.Ident, c!"x"⟩ _ rfl) (.nil _ _ _) ⟨_, [], rfl, by simp [Token.eof, level, tableLevel]⟩
  cases h with
  | dir h =>
    cases h with
    | here h =>
      cases h
      refine ⟨⟨_, .eof [] (by simp [AllWs]), .nil _ rfl⟩, ?_, .inl rfl⟩
      intro ws c r h
      cases ws <;> cases h
    | there h =>
      cases h with
      | here h => cases h; exact ⟨h1, newStart_first (by decide) (by decide), .inr ⟨c!"x", '\n', rfl, rfl⟩⟩
      | there h => cases h

/-- C82 is false for a piece that begins with `-`: the lines `1` and `-1` show 1 and -1, the text of both is one expression and shows 0. -/
theorem c82_false_minus (net : Net) (s : St F) : evalText net c!"1" s = (.ok (), { s with out := s.out ++ c!"1" ++ c!"\n" }) ∧
    evalText net c!"-1" s = (.ok (), { s with out := s.out ++ c!"-1" ++ c!"\n" }) ∧
    evalText net (unlines [c!"1", c!"-1"]) s = (.ok (), { s with out := s.out ++ c!"0" ++ c!"\n" }) := ⟨rfl, rfl, rfl⟩

/-- C82 is false after a piece that fails: the REPL goes on, the text is not evaluated further. -/
theorem c82_false_error (net : Net) : evalText (F := F) net c!"x" ⟨Context.new, [], []⟩ = (.ok (), ⟨Context.new, [], c!"ident:x not found\n"⟩) ∧
    evalText (F := F) net c!"1" ⟨Context.new, [], c!"ident:x not found\n"⟩ = (.ok (), ⟨Context.new, [], c!"ident:x not found\n1\n"⟩) ∧
    evalText (F := F) net (unlines [c!"x", c!"1"]) ⟨Context.new, [], []⟩ = (.ok (), ⟨Context.new, [], c!"ident:x not found\n"⟩) := ⟨rfl, rfl, rfl⟩

/-- C82 is false for a call of a request defined later: line by line nothing is sent, in one text the request is. -/
theorem c82_false_order (k : Clocks) : ∃ s1 s2 s3 : St F, evalText (refusing k) c!"f()" ⟨Context.new, [], []⟩ = (.ok (), s1) ∧
    evalText (refusing k) c!"request f `GET http://localhost/`" s1 = (.ok (), s2) ∧ s2.sent = [] ∧
    evalText (refusing k) (unlines [c!"f()", c!"request f `GET http://localhost/`"]) ⟨Context.new, [], []⟩ = (.ok (), s3) ∧
    s3.sent = [c!"GET http://localhost/"] :=
  ⟨_, _, _, rfl, rfl, rfl, rfl, rfl⟩

end Am
