import Verif.Spec.Names
import Verif.Proofs.Parens
/-! # Renaming (C98): lemmas -/
set_option linter.unusedSimpArgs false
set_option linter.unusedSectionVars false
namespace Am
open Spec
variable {F : Type} [Rt F]

section
variable {v f : Str → Str}

theorem renamedRes_refl {α : Type} (r : Res α) : RenamedRes v f r r := by
  cases r with
  | ok a => exact .ok a
  | err e => exact .err e e (.same e)
  | panic => exact .panic
  | hang => exact .hang

def NamesM (v f : Str → Str) {α : Type} (m m' : M F α) : Prop :=
  ∀ s t, RenamedSt v f s t → RenamedRes v f (m s).1 (m' t).1 ∧ RenamedSt v f (m s).2 (m' t).2

theorem names_lift {α : Type} (r : Res α) : NamesM (F := F) v f (M.lift r) (M.lift r) := fun _ _ h => ⟨renamedRes_refl r, h⟩

theorem names_pure {α : Type} (a : α) : NamesM (F := F) v f (M.pure a) (M.pure a) := fun _ _ h => ⟨.ok a, h⟩

theorem names_bind {α β : Type} {x y : M F α} {g g' : α → M F β} (h : NamesM v f x y) (h' : ∀ a, NamesM v f (g a) (g' a)) :
    NamesM v f (x >>= g) (y >>= g') := by
  intro s t hs
  have h1 := h s t hs
  show RenamedRes v f (M.bind x g s).1 (M.bind y g' t).1 ∧ RenamedSt v f (M.bind x g s).2 (M.bind y g' t).2
  unfold M.bind
  rcases hx : x s with ⟨r, s1⟩
  rcases hy : y t with ⟨r', t1⟩
  rw [hx, hy] at h1
  obtain ⟨h1, h2⟩ := h1
  dsimp only at h1
  cases h1 with
  | ok a => exact h' a s1 t1 h2
  | err e e' he => exact ⟨.err e e' he, h2⟩
  | panic => exact ⟨.panic, h2⟩
  | hang => exact ⟨.hang, h2⟩

theorem amGet_renamed {V : Type} (hv : ∀ a b, v a = v b → a = b) (n : Str) : ∀ l : List (Str × V), amGet (v n) (l.map fun p => (v p.1, p.2)) = amGet n l
  | [] => rfl
  | (k, x) :: l => by
    simp only [List.map_cons, amGet]
    by_cases h : k = n
    · rw [if_pos h, if_pos (congrArg v h)]
    · rw [if_neg h, if_neg fun e => h (hv _ _ e)]
      exact amGet_renamed hv n l

theorem amInsert_renamed {V : Type} (hv : ∀ a b, v a = v b → a = b) (n : Str) (y : V) : ∀ l : List (Str × V),
    amInsert (v n) y (l.map fun p => (v p.1, p.2)) = (amInsert n y l).map fun p => (v p.1, p.2)
  | [] => rfl
  | (k, x) :: l => by
    simp only [List.map_cons, amInsert]
    by_cases h : k = n
    · rw [if_pos h, if_pos (congrArg v h)]; rfl
    · rw [if_neg h, if_neg fun e => h (hv _ _ e), amInsert_renamed hv n y l]; rfl

theorem names_read (hr : Renaming v f) (call call' : Call F) (n : Str) : NamesM v f (evalExpr call (.ident n)) (evalExpr call' (.ident (v n))) := by
  intro s t h
  have e : t.ctx.get (v n) = s.ctx.get n := by unfold Context.get; rw [h.variables, amGet_renamed hr.variables]
  simp only [evalExpr, e]
  split
  · exact ⟨.ok _, h⟩
  · exact ⟨.err _ _ (.variable n), h⟩

theorem names_write (hr : Renaming v f) (n : Str) (x : Value F) :
    NamesM v f (M.modify fun s : St F => { s with ctx := s.ctx.set n x }) (M.modify fun s : St F => { s with ctx := s.ctx.set (v n) x }) := by
  intro s t ⟨h1, h2, h3, h4, h5⟩
  refine ⟨.ok _, ?_, h2, h3, h4, h5⟩
  show amInsert (v n) x t.ctx.inner = _
  rw [h1, amInsert_renamed hr.variables]; rfl

mutual
theorem names_expr (hr : Renaming v f) {call call' : Call F} (hc : ∀ n args, NamesM v f (call n args) (call' (f n) args)) :
    ∀ e : Expr F, (∀ k, (false, k) ∈ ops e → k.isBinary = true) → NamesM v f (evalExpr call e) (evalExpr call' (renamed v f e))
  | .int _, _ | .float _, _ | .bool _, _ | .str _, _ => names_pure _
  | .ident n, _ => names_read hr call call' n
  | .arr items, h => by
    have ih := names_list hr hc items h
    simp only [renamed, evalExpr]
    exact names_bind ih fun _ => names_pure _
  | .map pairs, h => by
    have ih := names_pairs hr hc pairs [] h
    simp only [renamed, evalExpr]
    exact names_bind ih fun _ => names_pure _
  | .index l i, h => by
    have h1 := names_expr hr hc l fun k hk => h k (List.mem_append_left _ hk)
    have h2 := names_expr hr hc i fun k hk => h k (List.mem_append_right _ hk)
    simp only [renamed, evalExpr]
    exact names_bind h1 fun _ => names_bind h2 fun _ => names_lift _
  | .field l n, h => by
    have h1 := names_expr hr hc l h
    simp only [renamed, evalExpr]
    exact names_bind h1 fun _ => names_lift _
  | .letE n e, h => by
    have h1 := names_expr hr hc e h
    simp only [renamed, evalExpr]
    exact names_bind h1 fun x => names_bind (names_write hr n x) fun _ => names_pure _
  | .unary t r, h => by
    have h1 := names_expr hr hc r fun k hk => h k (List.mem_cons_of_mem _ hk)
    simp only [renamed, evalExpr]
    exact names_bind h1 fun _ => names_lift _
  | .binary t l r, h => by
    have h1 := names_expr hr hc l fun k hk => h k (List.mem_cons_of_mem _ (List.mem_append_left _ hk))
    have h2 := names_expr hr hc r fun k hk => h k (List.mem_cons_of_mem _ (List.mem_append_right _ hk))
    simp only [renamed, evalExpr]
    rcases isBinary_cases (F := F) (h t.kind (List.mem_cons_self ..)) with ⟨op, hop⟩ | ⟨hn, hk⟩
    · rw [hop]
      exact names_bind h1 fun _ => names_bind h2 fun _ => names_lift _
    · rw [hn]
      dsimp only
      rcases hk with hk | hk
      · rw [if_pos hk, if_pos hk]
        refine names_bind h1 fun a => ?_
        split
        · exact h2
        · exact names_pure _
      · have hne : ¬ t.kind = .Lo := by rw [hk]; decide
        rw [if_neg hne, if_pos hk, if_neg hne, if_pos hk]
        refine names_bind h1 fun a => ?_
        split
        · exact names_pure _
        · exact h2
  | .paren e, h => by
    have h1 := names_expr hr hc e h
    simp only [renamed, evalExpr]
    exact h1
  | .ifE c t e, h => by
    have h1 := names_expr hr hc c fun k hk => h k (List.mem_append_left _ (List.mem_append_left _ hk))
    have h2 := names_block hr hc t .null fun k hk => h k (List.mem_append_left _ (List.mem_append_right _ hk))
    have h3 := names_block hr hc e .null fun k hk => h k (List.mem_append_right _ hk)
    simp only [renamed, evalExpr]
    refine names_bind h1 fun a => ?_
    split
    · exact h3
    · exact h2
  | .call n args, h => by
    have ih := names_list hr hc args h
    simp only [renamed, evalExpr]
    exact names_bind ih fun vs => hc n vs
theorem names_list (hr : Renaming v f) {call call' : Call F} (hc : ∀ n args, NamesM v f (call n args) (call' (f n) args)) :
    ∀ l : List (Expr F), (∀ k, (false, k) ∈ opsList l → k.isBinary = true) → NamesM v f (evalList call l) (evalList call' (renamedList v f l))
  | [], _ => names_pure _
  | e :: l, h => by
    have h1 := names_expr hr hc e fun k hk => h k (List.mem_append_left _ hk)
    have h2 := names_list hr hc l fun k hk => h k (List.mem_append_right _ hk)
    simp only [renamedList, evalList]
    exact names_bind h1 fun _ => names_bind h2 fun _ => names_pure _
theorem names_pairs (hr : Renaming v f) {call call' : Call F} (hc : ∀ n args, NamesM v f (call n args) (call' (f n) args)) :
    ∀ (l : List (Expr F × Expr F)) (acc : List (Str × Value F)), (∀ k, (false, k) ∈ opsPairs l → k.isBinary = true) →
      NamesM v f (evalPairs call acc l) (evalPairs call' acc (renamedPairs v f l))
  | [], _, _ => names_pure _
  | (k, e) :: l, acc, h => by
    have h1 := names_expr hr hc k fun k hk => h k (by simp only [opsPairs, List.mem_append]; exact .inl (.inl hk))
    have h2 := names_expr hr hc e fun k hk => h k (by simp only [opsPairs, List.mem_append]; exact .inl (.inr hk))
    have h3 := fun acc => names_pairs hr hc l acc fun k hk => h k (by simp only [opsPairs, List.mem_append]; exact .inr hk)
    simp only [renamedPairs, evalPairs]
    exact names_bind h1 fun _ => names_bind h2 fun _ => h3 _
theorem names_block (hr : Renaming v f) {call call' : Call F} (hc : ∀ n args, NamesM v f (call n args) (call' (f n) args)) :
    ∀ (l : List (Expr F)) (acc : Value F), (∀ k, (false, k) ∈ opsList l → k.isBinary = true) →
      NamesM v f (evalBlock call acc l) (evalBlock call' acc (renamedList v f l))
  | [], _, _ => names_pure _
  | e :: l, acc, h => by
    have h1 := names_expr hr hc e fun k hk => h k (List.mem_append_left _ hk)
    have h2 := fun x => names_block hr hc l x fun k hk => h k (List.mem_append_right _ hk)
    simp only [renamedList, evalBlock]
    exact names_bind h1 fun _ => h2 _
end

/-! ## Calls -/

theorem names_say (text : Str) : NamesM (F := F) v f (M.modify fun s => { s with out := s.out ++ text }) (M.modify fun s => { s with out := s.out ++ text }) := by
  intro s t ⟨h1, h2, h3, h4, h5⟩
  exact ⟨.ok _, h1, h2, h3, h4, congrArg (· ++ text) h5⟩

theorem names_native (hr : Renaming v f) (name : Str) (args : List (Value F)) : NamesM v f (callNative name args) (callNative (f name) args) := by
  have key : ∀ b ∈ builtin, (f name = b ↔ name = b) := fun b hb =>
    ⟨fun e => hr.functions _ _ (e.trans (hr.builtins b hb).symm), fun e => (congrArg f e).trans (hr.builtins b hb)⟩
  have k1 := key c!"println" (by decide)
  have k2 := key c!"print" (by decide)
  have k3 := key c!"format" (by decide)
  have k4 := key c!"length" (by decide)
  have k5 := key c!"append" (by decide)
  unfold callNative
  simp only [List.append_assoc]
  by_cases h1 : name = c!"println"
  · rw [if_pos h1, if_pos (k1.2 h1)]
    exact names_bind (names_lift _) fun x => names_bind (names_say _) fun _ => names_pure _
  rw [if_neg h1, if_neg (mt k1.1 h1)]
  by_cases h2 : name = c!"print"
  · rw [if_pos h2, if_pos (k2.2 h2)]
    exact names_bind (names_lift _) fun x => names_bind (names_say _) fun _ => names_pure _
  rw [if_neg h2, if_neg (mt k2.1 h2)]
  by_cases h3 : name = c!"format"
  · rw [if_pos h3, if_pos (k3.2 h3)]; exact names_lift _
  rw [if_neg h3, if_neg (mt k3.1 h3)]
  by_cases h4 : name = c!"length"
  · rw [if_pos h4, if_pos (k4.2 h4)]; exact names_lift _
  rw [if_neg h4, if_neg (mt k4.1 h4)]
  by_cases h5 : name = c!"append"
  · rw [if_pos h5, if_pos (k5.2 h5)]; exact names_lift _
  rw [if_neg h5, if_neg (mt k5.1 h5)]
  have := RenamedError.function (v := v) (f := f) name
  simp only [List.append_assoc] at this
  exact fun _ _ h => ⟨.err _ _ this, h⟩

theorem fillBy_renamed (g h : Str → Str) (e : ∀ n, h (v n) = g n) : ∀ ps : List Piece, fillBy h (ps.map (Piece.renamed v)) = fillBy g ps
  | [] => rfl
  | .lit c :: ps => congrArg (c :: ·) (fillBy_renamed g h e ps)
  | .hole n :: ps => by
    show h (v n) ++ fillBy h (ps.map (Piece.renamed v)) = g n ++ fillBy g ps
    rw [e, fillBy_renamed g h e ps]

theorem render_renamed (hr : Renaming v f) {s t : St F} (hs : RenamedSt v f s t) {m m' : Str} (hm : RenamedText v m m') : render t.ctx m' = render s.ctx m := by
  obtain ⟨ps, h1, h2⟩ := hm
  obtain ⟨qs, _, u1, e1⟩ := c27_render s.ctx m
  obtain ⟨qs', _, u2, e2⟩ := c27_render t.ctx m'
  rw [e1, e2, ← u1 _ h1, ← u2 _ h2, fillBy_renamed]
  intro n
  rw [hs.variables, amGet_renamed hr.variables]

theorem names_request (hr : Renaming v f) (net : Net) (call : Call F) (name : Str) {m m' : Str} (hm : RenamedText v m m') (as : List (Expr F)) :
    NamesM v f (callRequest net call name m as) (callRequest net call (f name) m' as) := by
  intro s t hs
  rw [callRequest_exchange, callRequest_exchange, render_renamed hr hs hm, hs.sent]
  generalize render s.ctx m = text
  generalize hbefore : s.sent = before
  clear hbefore
  revert s t
  show NamesM v f _ _
  unfold exchangeOf
  refine names_bind (fun s t ⟨h1, h2, h3, h4, h5⟩ => ⟨.ok _, h1, h2, h3, congrArg (· ++ [text]) h4, h5⟩) fun _ => ?_
  refine names_bind (names_lift _) fun p => ?_
  refine names_bind (names_lift _) fun map => ?_
  intro s t ⟨h1, h2, h3, h4, h5⟩
  show RenamedRes v f (M.bind _ _ s).1 (M.bind _ _ t).1 ∧ RenamedSt v f (M.bind _ _ s).2 (M.bind _ _ t).2
  unfold M.bind inLocal
  rw [h4, h5]
  rcases evalAsserts call as { ctx := Context.ofMap map, sent := s.sent, out := s.out } with ⟨x, u⟩
  cases x with
  | ok x =>
    refine ⟨.ok _, h1, h2, ?_, rfl, rfl⟩
    show t.ctx.records ++ [_] = (s.ctx.records ++ [_]).map _
    rw [h3, List.map_append]; rfl
  | err e => exact ⟨.err _ _ (.same _), h1, h2, h3, rfl, rfl⟩
  | panic => exact ⟨.panic, h1, h2, h3, rfl, rfl⟩
  | hang => exact ⟨.hang, h1, h2, h3, rfl, rfl⟩

theorem renamedDefinition_get (hr : Renaming v f) {l l' : List (Str × (Str × List (Expr F)))} (h : Each (RenamedDefinition v f) l l') (n : Str) :
    (amGet n l = none ∧ amGet (f n) l' = none) ∨ ∃ m m' as, amGet n l = some (m, as) ∧ amGet (f n) l' = some (m', as) ∧ RenamedText v m m' := by
  induction h with
  | nil => exact .inl ⟨rfl, rfl⟩
  | @cons p p' l l' hp _ ih =>
    obtain ⟨k, m, as⟩ := p
    obtain ⟨k', m', as'⟩ := p'
    obtain ⟨e1, e2, e3⟩ := hp
    dsimp only at e1 e2 e3
    subst e1 e3
    simp only [amGet]
    by_cases hn : k = n
    · rw [if_pos hn, if_pos (congrArg f hn)]
      exact .inr ⟨m, m', _, rfl, rfl, e2⟩
    · rw [if_neg hn, if_neg fun e => hn (hr.functions _ _ e)]
      exact ih

theorem names_callAt (hr : Renaming v f) (net : Net) (n : Nat) (name : Str) (args : List (Value F)) :
    NamesM v f (callAt net n name args) (callAt net n (f name) args) := by
  intro s t hs
  have hd := renamedDefinition_get hr hs.requests name
  cases n with
  | zero =>
    unfold callAt Context.request
    rcases hd with ⟨h1, h2⟩ | ⟨m, m', as, h1, h2, _⟩
    · rw [h1, h2]; exact names_native hr name args s t hs
    · rw [h1, h2]; exact ⟨.hang, hs⟩
  | succ n =>
    unfold callAt Context.request
    rcases hd with ⟨h1, h2⟩ | ⟨m, m', as, h1, h2, h3⟩
    · rw [h1, h2]; exact names_native hr name args s t hs
    · rw [h1, h2]; exact names_request hr net _ name h3 as s t hs

/-! ## Sources -/

theorem renamedDefinition_insert (hr : Renaming v f) {l l' : List (Str × (Str × List (Expr F)))} (h : Each (RenamedDefinition v f) l l') (n : Str) {m m' : Str}
    (as : List (Expr F)) (hm : RenamedText v m m') : Each (RenamedDefinition v f) (amInsert n (m, as) l) (amInsert (f n) (m', as) l') := by
  induction h with
  | nil => exact .cons ⟨rfl, hm, rfl⟩ .nil
  | @cons p p' l l' hp hl ih =>
    obtain ⟨k, x⟩ := p
    obtain ⟨k', x'⟩ := p'
    obtain ⟨e1, e2, e3⟩ := hp
    dsimp only at e1
    subst e1
    simp only [amInsert]
    by_cases hn : k = n
    · rw [if_pos hn, if_pos (congrArg f hn)]; exact .cons ⟨rfl, hm, rfl⟩ hl
    · rw [if_neg hn, if_neg fun e => hn (hr.functions _ _ e)]; exact .cons ⟨rfl, e2, e3⟩ ih

theorem renamedDefinition_extend (hr : Renaming v f) {l l' : List (Str × (Str × List (Expr F)))} (h : Each (RenamedDefinition v f) l l')
    {m m' : List (Str × (Str × List (Expr F)))} (hm : Each (RenamedDefinition v f) m m') : Each (RenamedDefinition v f) (amExtend l m) (amExtend l' m') := by
  induction hm generalizing l l' with
  | nil => exact h
  | @cons p p' m m' hp _ ih =>
    obtain ⟨k, x, as⟩ := p
    obtain ⟨k', x', as'⟩ := p'
    obtain ⟨e1, e2, e3⟩ := hp
    dsimp only at e1 e2 e3
    subst e1 e3
    exact ih (renamedDefinition_insert hr h k _ e2)

theorem renamedList_append (a b : List (Expr F)) : renamedList v f (a ++ b) = renamedList v f a ++ renamedList v f b := by
  induction a with
  | nil => rfl
  | cons e a ih => exact congrArg (renamed v f e :: ·) ih

theorem renamedItems_source (hr : Renaming v f) {is is' : List (Item F)} (h : Each (RenamedItem v f) is is') : ∀ {src src' : Source F},
    src'.exprs = renamedList v f src.exprs → Each (RenamedDefinition v f) src.requests src'.requests →
    src'.tests = src.tests.map (fun p => (p.1, renamedList v f p.2)) →
    (is'.foldl addItem src').exprs = renamedList v f (is.foldl addItem src).exprs ∧
      Each (RenamedDefinition v f) (is.foldl addItem src).requests (is'.foldl addItem src').requests ∧
      (is'.foldl addItem src').tests = (is.foldl addItem src).tests.map (fun p => (p.1, renamedList v f p.2)) := by
  induction h with
  | nil => intro src src' h1 h2 h3; exact ⟨h1, h2, h3⟩
  | cons hi _ ih =>
    intro src src' h1 h2 h3
    rw [List.foldl_cons, List.foldl_cons]
    cases hi with
    | expr e =>
      refine ih ?_ h2 h3
      show src'.exprs ++ [_] = renamedList v f (src.exprs ++ [e])
      rw [renamedList_append, h1]; rfl
    | request n m m' as hm => exact ih h1 (renamedDefinition_insert hr h2 n as hm) h3
    | test n b =>
      refine ih h1 h2 ?_
      show amInsert n _ src'.tests = (amInsert n b src.tests).map _
      rw [h3]
      generalize src.tests = l
      induction l with
      | nil => rfl
      | cons p l ih =>
        obtain ⟨k, c⟩ := p
        simp only [List.map_cons, amInsert]
        by_cases hn : k = n
        · rw [if_pos hn, if_pos hn]; rfl
        · rw [if_neg hn, if_neg hn, ih]; rfl

end

end Am
