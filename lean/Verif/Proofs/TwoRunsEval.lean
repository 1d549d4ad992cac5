import Verif.Proofs.TwoRuns
/-! # Two runs side by side: the evaluator -/
set_option linter.unusedSimpArgs false
set_option linter.unusedVariables false
set_option linter.unusedSectionVars false
namespace Am
variable {F : Type} {g : Record → Record} {may : Prop}

section eval
variable (i : Rt F) (b : Bool) (hb : may ∧ i.checks = true ∨ b = i.checks) {call call' : Call F}
  (hc : ∀ n vs, TiedM g may (call n vs) (call' n vs)) (hg : ∀ n vs, Grows (call' n vs))
include hb hc hg

mutual
theorem evalExpr_tied : ∀ e : Expr F, TiedM g may (@evalExpr F i call e) (@evalExpr F (setChecks i b) call' e)
  | .int _ => tied_pure _
  | .float _ => tied_pure _
  | .bool _ => tied_pure _
  | .str _ => tied_pure _
  | .arr items => by
    unfold evalExpr
    exact tied_bind (evalList_tied items) (fun _ => tied_pure _) (fun _ => grows_pure _)
  | .map pairs => by
    unfold evalExpr
    exact tied_bind (evalPairs_tied pairs []) (fun _ => tied_pure _) (fun _ => grows_pure _)
  | .index l j => by
    unfold evalExpr
    rw [setChecks_index i b]
    exact tied_bind (evalExpr_tied l) (fun _ => tied_bind (evalExpr_tied j) (fun _ => tied_lift (.inl rfl)) (fun _ => grows_lift _))
      (fun _ => grows_bind (@evalExpr_grows F (setChecks i b) call' hg j) (fun _ => grows_lift _))
  | .field l n => by
    unfold evalExpr
    rw [setChecks_field i b]
    exact tied_bind (evalExpr_tied l) (fun _ => tied_lift (.inl rfl)) (fun _ => grows_lift _)
  | .ident n => by
    unfold evalExpr
    intro s t hs
    have h := (agrees_iff.1 hs).1
    have hget : s.ctx.get n = t.ctx.get n := by unfold Context.get; rw [h]
    dsimp only
    rw [hget]
    split <;> exact .inl ⟨rfl, hs⟩
  | .letE n e => by
    unfold evalExpr
    refine tied_bind (evalExpr_tied e) (fun v => tied_bind (tied_modify fun s t hs => ?_) (fun _ => tied_pure _) (fun _ => grows_pure _))
      (fun _ => grows_bind (grows_modify fun s => Behind.refl s) (fun _ => grows_pure _))
    obtain ⟨h1, h2, h3, h4, h5⟩ := agrees_iff.1 hs
    refine agrees_iff.2 ⟨?_, h2, h3, h4, h5⟩
    unfold Context.set
    rw [h1]
  | .unary t r => by
    unfold evalExpr
    exact tied_bind (evalExpr_tied r) (fun v => tied_lift (unary_tied i b hb t v)) (fun _ => grows_lift _)
  | .binary t l r => by
    unfold evalExpr
    rw [setChecks_exprDisplay i b]
    have ihl := evalExpr_tied l
    have ihr := evalExpr_tied r
    have gr := @evalExpr_grows F (setChecks i b) call' hg r
    rcases binary_tied i b hb t.kind with ⟨h1, h2⟩ | ⟨o, o', h1, h2, h3⟩
    · rw [h1, h2]
      dsimp only
      by_cases hlo : t.kind = .Lo
      · rw [if_pos hlo, if_pos hlo]
        refine tied_bind ihl (fun a => ?_) (fun a => ?_)
        · split
          · exact ihr
          · exact tied_pure _
        · split
          · exact gr
          · exact grows_pure _
      · rw [if_neg hlo, if_neg hlo]
        by_cases hla : t.kind = .La
        · rw [if_pos hla, if_pos hla]
          refine tied_bind ihl (fun a => ?_) (fun a => ?_)
          · split
            · exact tied_pure _
            · exact ihr
          · split
            · exact grows_pure _
            · exact gr
        · rw [if_neg hla, if_neg hla]
          exact tied_lift (.inl rfl)
    · rw [h1, h2]
      exact tied_bind ihl (fun x => tied_bind ihr (fun y => tied_lift (h3 x y)) (fun _ => grows_lift _))
        (fun _ => grows_bind gr (fun _ => grows_lift _))
  | .paren e => by
    unfold evalExpr
    exact evalExpr_tied e
  | .ifE c t e => by
    unfold evalExpr
    have ih1 := evalBlock_tied e .null
    have ih2 := evalBlock_tied t .null
    refine tied_bind (evalExpr_tied c) (fun a => ?_) (fun a => ?_)
    · split
      · exact ih1
      · exact ih2
    · split
      · exact @evalBlock_grows F (setChecks i b) call' hg e .null
      · exact @evalBlock_grows F (setChecks i b) call' hg t .null
  | .call f args => by
    unfold evalExpr
    exact tied_bind (evalList_tied args) (fun vs => hc f vs) (fun vs => hg f vs)
termination_by structural e => e
theorem evalList_tied : ∀ l : List (Expr F), TiedM g may (@evalList F i call l) (@evalList F (setChecks i b) call' l)
  | [] => tied_pure _
  | e :: l => by
    unfold evalList
    exact tied_bind (evalExpr_tied e) (fun _ => tied_bind (evalList_tied l) (fun _ => tied_pure _) (fun _ => grows_pure _))
      (fun _ => grows_bind (@evalList_grows F (setChecks i b) call' hg l) (fun _ => grows_pure _))
termination_by structural l => l
theorem evalPairs_tied : ∀ (l : List (Expr F × Expr F)) (acc : List (Str × Value F)),
    TiedM g may (@evalPairs F i call acc l) (@evalPairs F (setChecks i b) call' acc l)
  | [], acc => tied_pure _
  | (k, v) :: l, acc => by
    unfold evalPairs
    rw [setChecks_display i b]
    exact tied_bind (evalExpr_tied k) (fun _ => tied_bind (evalExpr_tied v) (fun _ => evalPairs_tied l _)
        (fun _ => @evalPairs_grows F (setChecks i b) call' hg l _))
      (fun _ => grows_bind (@evalExpr_grows F (setChecks i b) call' hg v) (fun _ => @evalPairs_grows F (setChecks i b) call' hg l _))
termination_by structural l => l
theorem evalBlock_tied : ∀ (l : List (Expr F)) (acc : Value F),
    TiedM g may (@evalBlock F i call acc l) (@evalBlock F (setChecks i b) call' acc l)
  | [], acc => tied_pure _
  | e :: l, acc => by
    unfold evalBlock
    exact tied_bind (evalExpr_tied e) (fun _ => evalBlock_tied l _) (fun _ => @evalBlock_grows F (setChecks i b) call' hg l _)
termination_by structural l => l
end

theorem evalAsserts_tied : ∀ l : List (Expr F), TiedM g may (@evalAsserts F i call l) (@evalAsserts F (setChecks i b) call' l)
  | [] => tied_pure _
  | e :: rest => by
    have ih := evalAsserts_tied rest
    have gr := @evalAsserts_grows F (setChecks i b) call' hg rest
    cases e with
    | binary t l r =>
      unfold evalAsserts
      rw [setChecks_exprDisplay i b, setChecks_display i b, setChecks_compare i b]
      have hend : ∀ x y as, Grows (F := F) (match @compareValues F i t.kind x y with
          | some result => (pure (Assert.mk (@Expr.display F i l ++ c!" " ++ t.literal ++ c!" " ++ @Expr.display F i r) (@Value.display F i x)
              t.literal (@Value.display F i y) result :: as) : M F (List Assert))
          | none => pure as) := by
        intro x y as
        split <;> exact grows_pure _
      refine tied_bind (tied_orElse (evalExpr_tied i b hb hc hg l)) (fun x => tied_bind (tied_orElse (evalExpr_tied i b hb hc hg r)) (fun y =>
        tied_bind ih (fun as => ?_) (fun as => hend x y as)) (fun y => grows_bind gr (hend x y)))
        (fun x => grows_bind (grows_orElse (@evalExpr_grows F (setChecks i b) call' hg r)) (fun y => grows_bind gr (hend x y)))
      cases @compareValues F i t.kind x y <;> exact tied_pure _
    | _ => exact ih

end eval

/-- What two networks answer to the same message after the same messages: the same up to what `g` removes, or the same crash. -/
def SendsTied (g : Record → Record) (net net' : Net) : Prop :=
  ∀ sent text, send net sent text = send net' sent text ∨
    ∃ rq rs t t' e, send net sent text = .ok (rq, rs, t, e) ∧ send net' sent text = .ok (rq, rs, t', e) ∧
      ∀ name as, g ⟨name, t, rq, rs, as, e⟩ = g ⟨name, t', rq, rs, as, e⟩

section calls
variable (i : Rt F) (b : Bool) (hb : may ∧ i.checks = true ∨ b = i.checks) (net net' : Net) (hn : SendsTied g net net')
include hb hn

theorem inLocal_tied {α : Type} (map : List (Str × Value F)) {m m' : M F α} (h : TiedM g may m m') :
    TiedM g may (inLocal map m) (inLocal map m') := by
  intro s t hs
  obtain ⟨h1, h2, h3, h4, h5⟩ := agrees_iff.1 hs
  have hx := h { s with ctx := Context.ofMap map } { t with ctx := Context.ofMap map } (agrees_iff.2 ⟨rfl, rfl, rfl, h4, h5⟩)
  unfold inLocal
  rcases hm : m { s with ctx := Context.ofMap map } with ⟨r, s1⟩
  rcases hm' : m' { t with ctx := Context.ofMap map } with ⟨r', t1⟩
  rw [hm, hm'] at hx
  rcases hx with ⟨hx, hy⟩ | ⟨hx, hy, hz⟩
  · cases hx
    obtain ⟨k1, k2, k3, k4, k5⟩ := agrees_iff.1 hy
    cases r with
    | ok a =>
      refine .inl ⟨?_, agrees_iff.2 ⟨h1, h2, h3, k4, k5⟩⟩
      dsimp only at k1 ⊢
      rw [k1]
    | err e => exact .inl ⟨rfl, agrees_iff.2 ⟨h1, h2, h3, k4, k5⟩⟩
    | panic => exact .inl ⟨rfl, agrees_iff.2 ⟨h1, h2, h3, k4, k5⟩⟩
    | hang => exact .inl ⟨rfl, agrees_iff.2 ⟨h1, h2, h3, k4, k5⟩⟩
  · cases hy
    refine .inr ⟨hx, rfl, ?_⟩
    cases r' <;> exact hz

omit hb hn in
theorem grows_inLocal {α : Type} (map : List (Str × Value F)) {m : M F α} (h : Grows m) : Grows (inLocal map m) := by
  intro s
  have h := h { s with ctx := Context.ofMap map }
  unfold inLocal
  cases hm : m { s with ctx := Context.ofMap map } with
  | mk r t =>
    rw [hm] at h
    cases r <;> exact h

theorem tied_bind_get {β : Type} {f f' : St F → M F β} (h : ∀ s t, Agrees g s t → Tied g may (f s s) (f' t t)) :
    TiedM g may (M.bind M.get f) (M.bind M.get f') := fun s t hs => h s t hs

theorem callRequest_tied {call call' : Call F} (hc : ∀ n vs, TiedM g may (call n vs) (call' n vs)) (hg : ∀ n vs, Grows (call' n vs))
    (name msg : Str) (asserts : List (Expr F)) :
    TiedM g may (@callRequest F i net call name msg asserts) (@callRequest F (setChecks i b) net' call' name msg asserts) := by
  unfold callRequest
  rw [setChecks_toMap i b, setChecks_render i b]
  have ga := fun map => grows_inLocal map (@evalAsserts_grows F (setChecks i b) call' hg asserts)
  refine tied_bind_get i b hb net net' hn fun s t hs => ?_
  obtain ⟨h1, h2, h3, h4, h5⟩ := agrees_iff.1 hs
  have htext : @render F i s.ctx msg = @render F i t.ctx msg := by
    unfold render
    have : @varText F i s.ctx = @varText F i t.ctx := by
      funext n
      unfold varText Context.get
      rw [h1]
    rw [this]
  rw [htext, h4]
  have grest : ∀ (p : Request × Response × Time × Str), Grows (F := F) (M.bind (M.lift (@Response.toMap F i p.2.1)) fun map =>
      M.bind (inLocal map (@evalAsserts F (setChecks i b) call' asserts)) fun q =>
        M.bind (M.modify fun s => { s with ctx := s.ctx.push ⟨name, p.2.2.1, p.1, p.2.1, q.1, p.2.2.2⟩ }) fun _ => M.pure (Value.map q.2)) := by
    intro p
    exact grows_bind (grows_lift _) (fun map => grows_bind (ga map) (fun q => grows_bind (grows_modify fun s => Behind.refl s) (fun _ => grows_pure _)))
  have key : TiedM (F := F) g may
      (M.bind (M.modify fun s => { s with sent := s.sent ++ [@render F i t.ctx msg] }) fun _ => M.bind (M.lift (send net t.sent (@render F i t.ctx msg))) fun p =>
        M.bind (M.lift (@Response.toMap F i p.2.1)) fun map => M.bind (inLocal map (@evalAsserts F i call asserts)) fun q =>
        M.bind (M.modify fun s => { s with ctx := s.ctx.push ⟨name, p.2.2.1, p.1, p.2.1, q.1, p.2.2.2⟩ }) fun _ => M.pure (Value.map q.2))
      (M.bind (M.modify fun s => { s with sent := s.sent ++ [@render F i t.ctx msg] }) fun _ => M.bind (M.lift (send net' t.sent (@render F i t.ctx msg))) fun p =>
        M.bind (M.lift (@Response.toMap F i p.2.1)) fun map => M.bind (inLocal map (@evalAsserts F (setChecks i b) call' asserts)) fun q =>
        M.bind (M.modify fun s => { s with ctx := s.ctx.push ⟨name, p.2.2.1, p.1, p.2.1, q.1, p.2.2.2⟩ }) fun _ => M.pure (Value.map q.2)) := by
    refine tied_bind (tied_modify fun s t hs => ?_) (fun _ => ?_) (fun _ => grows_bind (grows_lift _) grest)
    · obtain ⟨h1, h2, h3, h4, h5⟩ := agrees_iff.1 hs
      exact agrees_iff.2 ⟨h1, h2, h3, by simp [h4], h5⟩
    have rest : ∀ (rq : Request) (rs : Response) (t t' : Time) (e : Str), (∀ as, g ⟨name, t, rq, rs, as, e⟩ = g ⟨name, t', rq, rs, as, e⟩) →
        TiedM (F := F) g may
        (M.bind (M.lift (@Response.toMap F i rs)) fun map => M.bind (inLocal map (@evalAsserts F i call asserts)) fun q =>
          M.bind (M.modify fun s => { s with ctx := s.ctx.push ⟨name, t, rq, rs, q.1, e⟩ }) fun _ => M.pure (Value.map q.2))
        (M.bind (M.lift (@Response.toMap F i rs)) fun map => M.bind (inLocal map (@evalAsserts F (setChecks i b) call' asserts)) fun q =>
          M.bind (M.modify fun s => { s with ctx := s.ctx.push ⟨name, t', rq, rs, q.1, e⟩ }) fun _ => M.pure (Value.map q.2)) := by
      intro rq rs t t' e ht
      refine tied_bind (tied_lift (.inl rfl)) (fun map => tied_bind (inLocal_tied i b hb net net' hn map (evalAsserts_tied i b hb hc hg asserts))
        (fun q => tied_bind (tied_modify fun s t hs => ?_) (fun _ => tied_pure _) (fun _ => grows_pure _))
        (fun q => grows_bind (grows_modify fun s => Behind.refl s) (fun _ => grows_pure _)))
        (fun map => grows_bind (ga map) (fun q => grows_bind (grows_modify fun s => Behind.refl s) (fun _ => grows_pure _)))
      obtain ⟨h1, h2, h3, h4, h5⟩ := agrees_iff.1 hs
      refine agrees_iff.2 ⟨h1, h2, ?_, h4, h5⟩
      simp only [Context.push, List.map_append, List.map_cons, List.map_nil, h3, ht]
    rcases hn t.sent (@render F i t.ctx msg) with h | ⟨rq, rs, t1, t2, e, h, h', h''⟩
    · rw [h]
      exact tied_bind (tied_lift (.inl rfl)) (fun p => rest p.1 p.2.1 p.2.2.1 p.2.2.1 p.2.2.2 (fun _ => rfl)) grest
    · rw [h, h']
      intro u v huv
      exact rest rq rs t1 t2 e (h'' name) u v huv
  exact key s t hs

theorem callAt_tied : ∀ (n : Nat) (name : Str) (args : List (Value F)),
    TiedM g may (@callAt F i net n name args) (@callAt F (setChecks i b) net' n name args)
  | 0, name, args => by
    intro s t hs
    obtain ⟨h1, h2, h3, h4, h5⟩ := agrees_iff.1 hs
    have hr : s.ctx.request name = t.ctx.request name := by unfold Context.request; rw [h2]
    unfold callAt
    rw [hr]
    split
    · exact .inl ⟨rfl, hs⟩
    · rw [setChecks_native i b]
      exact native s t hs
  | n + 1, name, args => by
    have hc := callAt_tied n
    have hg := @callAt_grows F (setChecks i b) net' n
    intro s t hs
    obtain ⟨h1, h2, h3, h4, h5⟩ := agrees_iff.1 hs
    have hr : s.ctx.request name = t.ctx.request name := by unfold Context.request; rw [h2]
    unfold callAt
    rw [hr]
    split
    · exact callRequest_tied i b hb net net' hn hc hg name _ _ s t hs
    · rw [setChecks_native i b]
      exact native s t hs
where
  native {name : Str} {args : List (Value F)} : TiedM g may (@callNative F i name args) (@callNative F i name args) := by
    have hout : ∀ x : Str, TiedM (F := F) g may (M.modify fun s => { s with out := s.out ++ x }) (M.modify fun s => { s with out := s.out ++ x }) := by
      intro x
      refine tied_modify fun s t hs => ?_
      obtain ⟨h1, h2, h3, h4, h5⟩ := agrees_iff.1 hs
      exact agrees_iff.2 ⟨h1, h2, h3, h4, by simp [h5]⟩
    have gout : ∀ x : Str, Grows (F := F) (M.modify fun s => { s with out := s.out ++ x }) :=
      fun x => grows_modify fun s => ⟨List.prefix_refl _, List.prefix_append _ _⟩
    unfold callNative
    simp only [List.append_assoc]
    split
    · exact tied_bind (tied_lift (.inl rfl)) (fun v => tied_bind (hout _) (fun _ => tied_pure _) (fun _ => grows_pure _))
        (fun v => grows_bind (gout _) (fun _ => grows_pure _))
    · split
      · exact tied_bind (tied_lift (.inl rfl)) (fun v => tied_bind (hout _) (fun _ => tied_pure _) (fun _ => grows_pure _))
          (fun v => grows_bind (gout _) (fun _ => grows_pure _))
      · split
        · exact tied_lift (.inl rfl)
        · split
          · exact tied_lift (.inl rfl)
          · split <;> exact tied_lift (.inl rfl)

theorem runBlock_tied (es : List (Expr F)) : TiedM g may (@runBlock F i net es) (@runBlock F (setChecks i b) net' es) :=
  evalBlock_tied i b hb (callAt_tied i b hb net net' hn 1) (@callAt_grows F (setChecks i b) net' 1) es .null

theorem sayLine_tied (x : Str) : TiedM (F := F) g may (sayLine x) (sayLine x) := by
  refine tied_modify fun s t hs => ?_
  obtain ⟨h1, h2, h3, h4, h5⟩ := agrees_iff.1 hs
  exact agrees_iff.2 ⟨h1, h2, h3, h4, by simp [h5]⟩

omit hb hn in
theorem sayLine_grows (x : Str) : Grows (F := F) (sayLine x) :=
  grows_modify fun s => ⟨List.prefix_refl _, by simp only [List.append_assoc]; exact List.prefix_append _ _⟩

theorem extend_tied (rs : List (Str × (Str × List (Expr F)))) : TiedM (F := F) g may (M.modify fun s => { s with ctx := s.ctx.extend rs })
    (M.modify fun s => { s with ctx := s.ctx.extend rs }) := by
  refine tied_modify fun s t hs => ?_
  obtain ⟨h1, h2, h3, h4, h5⟩ := agrees_iff.1 hs
  exact agrees_iff.2 ⟨h1, by simp [Context.extend, h2], h3, h4, h5⟩

omit hb hn in
theorem evalText_grows [Rt F] (net : Net) (text : Str) : Grows (F := F) (evalText net text) := by
  unfold evalText
  split
  · rename_i src _
    refine grows_bind (grows_modify fun s => Behind.refl s) (fun _ s => ?_)
    have h := runBlock_grows net src.exprs s
    rcases hm : runBlock net src.exprs s with ⟨r, s1⟩
    rw [hm] at h
    cases r with
    | ok v => exact h.trans (sayLine_grows _ s1)
    | err e => exact h.trans (sayLine_grows _ s1)
    | panic => exact h
    | hang => exact h
  · exact sayLine_grows _
  · exact grows_lift _
  · exact grows_lift _

theorem evalText_tied (text : Str) : TiedM g may (@evalText F i net text) (@evalText F (setChecks i b) net' text) := by
  unfold evalText
  rw [setChecks_parse i b, setChecks_display i b]
  split
  · rename_i src _
    have gtail : Grows (F := F) (fun s => match @runBlock F (setChecks i b) net' src.exprs s with
        | (.ok v, s) => sayLine (@Value.display F i v) s
        | (.err e, s) => sayLine e s
        | (.panic, s) => (.panic, s)
        | (.hang, s) => (.hang, s)) := by
      intro s
      have h := @runBlock_grows F (setChecks i b) net' src.exprs s
      dsimp only
      rcases hm : @runBlock F (setChecks i b) net' src.exprs s with ⟨r, s1⟩
      rw [hm] at h
      cases r with
      | ok v => exact h.trans (sayLine_grows _ s1)
      | err e => exact h.trans (sayLine_grows _ s1)
      | panic => exact h
      | hang => exact h
    refine tied_bind (extend_tied i b hb net net' hn src.requests) (fun _ s t hs => ?_) (fun _ => gtail)
    have h := runBlock_tied i b hb net net' hn src.exprs s t hs
    rcases hm : @runBlock F i net src.exprs s with ⟨r, s1⟩
    rcases hm' : @runBlock F (setChecks i b) net' src.exprs t with ⟨r', t1⟩
    rw [hm, hm'] at h
    rcases h with ⟨h1, h2⟩ | ⟨h1, h2, h3⟩
    · cases h1
      cases r with
      | ok v => exact sayLine_tied i b hb net net' hn _ s1 t1 h2
      | err e => exact sayLine_tied i b hb net net' hn _ s1 t1 h2
      | panic => exact .inl ⟨rfl, h2⟩
      | hang => exact .inl ⟨rfl, h2⟩
    · cases h2
      refine .inr ⟨h1, rfl, ?_⟩
      cases r' with
      | ok v => exact h3.trans (sayLine_grows _ t1)
      | err e => exact h3.trans (sayLine_grows _ t1)
      | panic => exact h3
      | hang => exact h3
  · exact sayLine_tied i b hb net net' hn _
  · exact tied_lift (.inl rfl)
  · exact tied_lift (.inl rfl)

omit hb hn in
theorem replLoop_grows [Rt F] (net : Net) : ∀ input : List Input, Grows (F := F) (replLoop net input)
  | [] => grows_lift _
  | .bad :: rest => replLoop_grows net rest
  | .line text :: rest => by
    unfold replLoop
    split
    · exact grows_pure _
    · split
      · exact replLoop_grows net rest
      · exact grows_bind (evalText_grows net text) (fun _ => replLoop_grows net rest)

theorem replLoop_tied : ∀ input : List Input, TiedM g may (@replLoop F i net input) (@replLoop F (setChecks i b) net' input)
  | [] => tied_lift (.inl rfl)
  | .bad :: rest => replLoop_tied rest
  | .line text :: rest => by
    unfold replLoop
    split
    · exact tied_pure _
    · split
      · exact replLoop_tied rest
      · exact tied_bind (evalText_tied i b hb net net' hn text) (fun _ => replLoop_tied rest) (fun _ => @replLoop_grows F (setChecks i b) net' rest)

end calls

theorem setChecks_self (i : Rt F) : setChecks i i.checks = i := rfl

theorem runBlock_twice (i : Rt F) (net net' : Net) (h : SendsTied g net net') (es : List (Expr F)) :
    TiedM g False (@runBlock F i net es) (@runBlock F i net' es) := by
  have h1 := runBlock_tied (may := False) i i.checks (.inr rfl) net net' h es
  rw [setChecks_self] at h1
  exact h1

theorem replLoop_twice (i : Rt F) (net net' : Net) (h : SendsTied g net net') (input : List Input) :
    TiedM g False (@replLoop F i net input) (@replLoop F i net' input) := by
  have h1 := replLoop_tied (may := False) i i.checks (.inr rfl) net net' h input
  rw [setChecks_self] at h1
  exact h1

end Am
