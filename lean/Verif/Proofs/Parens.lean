import Verif.Spec.Parens
import Verif.Proofs.Eval
import Verif.Props.Rearrange
import Verif.Props.Printing
import Verif.Props.Parsing
/-! # Evaluation does not look at parentheses -/
set_option linter.unusedSimpArgs false
set_option linter.unusedSectionVars false
namespace Am
open Spec
variable {F : Type} [Rt F]

/-- An operator of the language is strict or one of the two logical ones. -/
theorem isBinary_cases {k : Kind} (h : k.isBinary = true) : (∃ op, binaryOp (F := F) k = some op) ∨ (binaryOp (F := F) k = none ∧ (k = .Lo ∨ k = .La)) := by
  cases k <;> first | (cases h; done) | exact .inl ⟨_, rfl⟩ | exact .inr ⟨rfl, .inl rfl⟩ | exact .inr ⟨rfl, .inr rfl⟩

mutual
theorem evalExpr_noParens (call : Call F) : ∀ (e : Expr F), (∀ k, (false, k) ∈ ops e → k.isBinary = true) → evalExpr call (noParens e) = evalExpr call e
  | .int _, _ => rfl
  | .float _, _ => rfl
  | .bool _, _ => rfl
  | .str _, _ => rfl
  | .ident _, _ => rfl
  | .arr items, h => by
    simp only [noParens, evalExpr]
    rw [evalList_noParens call items h]
  | .map pairs, h => by
    simp only [noParens, evalExpr]
    rw [evalPairs_noParens call pairs [] h]
  | .index l i, h => by
    simp only [noParens, evalExpr]
    rw [evalExpr_noParens call l fun k hk => h k (List.mem_append_left _ hk), evalExpr_noParens call i fun k hk => h k (List.mem_append_right _ hk)]
  | .field l n, h => by
    simp only [noParens, evalExpr]
    rw [evalExpr_noParens call l h]
  | .letE n v, h => by
    simp only [noParens, evalExpr]
    rw [evalExpr_noParens call v h]
  | .unary t r, h => by
    simp only [noParens, evalExpr]
    rw [evalExpr_noParens call r fun k hk => h k (List.mem_cons_of_mem _ hk)]
  | .binary t l r, h => by
    have h1 := evalExpr_noParens call l fun k hk => h k (List.mem_cons_of_mem _ (List.mem_append_left _ hk))
    have h2 := evalExpr_noParens call r fun k hk => h k (List.mem_cons_of_mem _ (List.mem_append_right _ hk))
    simp only [noParens, evalExpr]
    rw [h1, h2]
    rcases isBinary_cases (F := F) (h t.kind (List.mem_cons_self ..)) with ⟨op, ho⟩ | ⟨ho, hk | hk⟩
    · rw [ho]
    · rw [ho]; simp only [hk]; rfl
    · rw [ho]; simp only [hk]; rfl
  | .paren v, h => by
    simp only [noParens, evalExpr]
    exact evalExpr_noParens call v h
  | .ifE c t e, h => by
    simp only [noParens, evalExpr]
    rw [evalExpr_noParens call c fun k hk => h k (List.mem_append_left _ (List.mem_append_left _ hk)),
      evalBlock_noParens call t .null fun k hk => h k (List.mem_append_left _ (List.mem_append_right _ hk)),
      evalBlock_noParens call e .null fun k hk => h k (List.mem_append_right _ hk)]
  | .call f args, h => by
    simp only [noParens, evalExpr]
    rw [evalList_noParens call args h]
theorem evalList_noParens (call : Call F) : ∀ (l : List (Expr F)), (∀ k, (false, k) ∈ opsList l → k.isBinary = true) →
    evalList call (noParensList l) = evalList call l
  | [], _ => rfl
  | e :: l, h => by
    simp only [noParensList, evalList]
    rw [evalExpr_noParens call e fun k hk => h k (List.mem_append_left _ hk), evalList_noParens call l fun k hk => h k (List.mem_append_right _ hk)]
theorem evalPairs_noParens (call : Call F) : ∀ (l : List (Expr F × Expr F)) (acc : List (Str × Value F)), (∀ k, (false, k) ∈ opsPairs l → k.isBinary = true) →
    evalPairs call acc (noParensPairs l) = evalPairs call acc l
  | [], _, _ => rfl
  | (k, v) :: l, acc, h => by
    have ih := fun acc => evalPairs_noParens call l acc fun k hk => h k (List.mem_append_right _ hk)
    simp only [noParensPairs, evalPairs]
    rw [evalExpr_noParens call k fun k hk => h k (List.mem_append_left _ (List.mem_append_left _ hk)),
      evalExpr_noParens call v fun k hk => h k (List.mem_append_left _ (List.mem_append_right _ hk))]
    simp only [ih]
theorem evalBlock_noParens (call : Call F) : ∀ (l : List (Expr F)) (acc : Value F), (∀ k, (false, k) ∈ opsList l → k.isBinary = true) →
    evalBlock call acc (noParensList l) = evalBlock call acc l
  | [], _, _ => rfl
  | e :: l, acc, h => by
    have ih := fun acc => evalBlock_noParens call l acc fun k hk => h k (List.mem_append_right _ hk)
    simp only [noParensList, evalBlock]
    rw [evalExpr_noParens call e fun k hk => h k (List.mem_append_left _ hk)]
    simp only [ih]
end

/-! ## Everything the parser returns uses known operators -/

mutual
theorem grouped_known {X : Expr F → Prop} : ∀ {e : Expr F}, Grouped X e → ∀ k, (false, k) ∈ ops e → k.isBinary = true
  | _, .int _, _, h => (nomatch h)
  | _, .float _, _, h => (nomatch h)
  | _, .bool _, _, h => (nomatch h)
  | _, .str _, _, h => (nomatch h)
  | _, .ident _, _, h => (nomatch h)
  | _, .arr _ g, k, h => groupedAll_known g k h
  | _, .map _ g, k, h => groupedPairs_known g k h
  | _, .index _ _ g1 g2 _, k, h => (List.mem_append.1 h).elim (grouped_known g1 k) (grouped_known g2 k)
  | _, .field _ _ g _, k, h => grouped_known g k h
  | _, .letE _ _ g, k, h => grouped_known g k h
  | _, .unary _ _ _ g _, k, h => by
    rcases List.mem_cons.1 h with h | h
    · cases h
    · exact grouped_known g k h
  | _, .binary _ _ _ hb g1 g2 _ _, k, h => by
    rcases List.mem_cons.1 h with h | h
    · cases h; exact hb
    · exact (List.mem_append.1 h).elim (grouped_known g1 k) (grouped_known g2 k)
  | _, .paren _ g, k, h => grouped_known g k h
  | _, .ifE _ _ _ g1 g2 g3, k, h => by
    rcases List.mem_append.1 h with h | h
    · exact (List.mem_append.1 h).elim (grouped_known g1 k) (groupedAll_known g2 k)
    · exact groupedAll_known g3 k h
  | _, .call _ _ g, k, h => groupedAll_known g k h
theorem groupedAll_known {X : Expr F → Prop} : ∀ {l : List (Expr F)}, GroupedAll X l → ∀ k, (false, k) ∈ opsList l → k.isBinary = true
  | _, .nil, _, h => (nomatch h)
  | _, .cons _ _ g1 g2, k, h => (List.mem_append.1 h).elim (grouped_known g1 k) (groupedAll_known g2 k)
theorem groupedPairs_known {X : Expr F → Prop} : ∀ {l : List (Expr F × Expr F)}, GroupedPairs X l → ∀ k, (false, k) ∈ opsPairs l → k.isBinary = true
  | _, .nil, _, h => (nomatch h)
  | _, .cons _ _ _ g1 g2 g3, k, h => by
    rcases List.mem_append.1 h with h | h
    · exact (List.mem_append.1 h).elim (grouped_known g1 k) (grouped_known g2 k)
    · exact groupedPairs_known g3 k h
end

/-! ## Asserts -/

/-- An assert that is not a binary expression is skipped. -/
theorem evalAsserts_skip (call : Call F) {a : Expr F} (h : ∀ t l r, a ≠ .binary t l r) (rest : List (Expr F)) : evalAsserts call (a :: rest) = evalAsserts call rest := by
  cases a <;> first | rfl | exact absurd rfl (h _ _ _)

/-- The same outcome in the same state. -/
def SameChecks (x y : Res (List Assert) × St F) : Prop :=
  x.2 = y.2 ∧ match x.1, y.1 with
    | .ok as, .ok as' => Each SameOutcome as as'
    | .err e, .err e' => e = e'
    | .panic, .panic => True
    | .hang, .hang => True
    | _, _ => False

theorem sameAssert_cases {a a' : Expr F} (h : SameAssert a a') :
    (∃ t l r l' r', a = .binary t l r ∧ a' = .binary t l' r' ∧ noParens l = noParens l' ∧ noParens r = noParens r') ∨
    ((∀ t l r, a ≠ .binary t l r) ∧ ∀ t l r, a' ≠ .binary t l r) := by
  obtain ⟨h1, h2⟩ := h
  have key : ∀ {x y : Expr F}, noParens x = noParens y → ¬ Enclosed y → ∀ t l r, x = .binary t l r →
      ∃ l' r', y = .binary t l' r' ∧ noParens l = noParens l' ∧ noParens r = noParens r' := by
    intro x y e hy t l r hx
    subst hx
    cases y <;> simp only [noParens] at e <;> first | (cases e; done) | exact absurd ⟨_, rfl⟩ hy | skip
    injection e with e1 e2 e3
    subst e1
    exact ⟨_, _, rfl, e2, e3⟩
  have bare : ∀ {t : Token} {l r : Expr F}, ¬ Enclosed (.binary t l r) := fun ⟨_, e⟩ => (nomatch e)
  by_cases hb : ∃ t l r, a = .binary t l r
  · obtain ⟨t, l, r, rfl⟩ := hb
    obtain ⟨l', r', rfl, e1, e2⟩ := key h1 (fun h => bare (h2.2 h)) t l r rfl
    exact .inl ⟨t, l, r, l', r', rfl, rfl, e1, e2⟩
  · right
    refine ⟨fun t l r e => hb ⟨t, l, r, e⟩, fun t l r e => ?_⟩
    subst e
    obtain ⟨l', r', rfl, _⟩ := key h1.symm (fun h => bare (h2.1 h)) t l r rfl
    exact hb ⟨_, _, _, rfl⟩

theorem evalAsserts_parens (call : Call F) {as as' : List (Expr F)} (h : Each SameAssert as as') (hk : ∀ a ∈ as, KnownOps a) (hk' : ∀ a ∈ as', KnownOps a) (s : St F) :
    SameChecks (evalAsserts call as s) (evalAsserts call as' s) := by
  induction h generalizing s with
  | nil => exact ⟨rfl, .nil⟩
  | @cons a a' as as' ha _ ih =>
    have ih := fun s => ih (fun a h => hk a (List.mem_cons_of_mem _ h)) (fun a h => hk' a (List.mem_cons_of_mem _ h)) s
    rcases sameAssert_cases ha with ⟨t, l, r, l', r', rfl, rfl, e1, e2⟩ | ⟨n1, n2⟩
    · have k1 := hk _ (List.mem_cons_self ..)
      have k2 := hk' _ (List.mem_cons_self ..)
      have q1 : evalExpr call l = evalExpr call l' := by
        rw [← evalExpr_noParens call l fun k h => k1 k (List.mem_cons_of_mem _ (List.mem_append_left _ h)), e1,
          evalExpr_noParens call l' fun k h => k2 k (List.mem_cons_of_mem _ (List.mem_append_left _ h))]
      have q2 : evalExpr call r = evalExpr call r' := by
        rw [← evalExpr_noParens call r fun k h => k1 k (List.mem_cons_of_mem _ (List.mem_append_right _ h)), e2,
          evalExpr_noParens call r' fun k h => k2 k (List.mem_cons_of_mem _ (List.mem_append_right _ h))]
      simp only [evalAsserts]
      rw [q1, q2]
      show SameChecks (M.bind _ _ s) (M.bind _ _ s)
      unfold M.bind
      rcases (evalExpr call l').orElse .null s with ⟨x, s1⟩
      cases x with
      | ok a =>
        dsimp only
        show SameChecks (M.bind _ _ s1) (M.bind _ _ s1)
        unfold M.bind
        rcases (evalExpr call r').orElse .null s1 with ⟨y, s2⟩
        cases y with
        | ok b =>
          dsimp only
          show SameChecks (M.bind _ _ s2) (M.bind _ _ s2)
          unfold M.bind
          have ih := ih s2
          rcases hx : evalAsserts call as s2 with ⟨z, s3⟩
          rcases hy : evalAsserts call as' s2 with ⟨z', s3'⟩
          rw [hx, hy] at ih
          obtain ⟨ih1, ih2⟩ := ih
          dsimp only at ih1 ih2
          subst ih1
          cases z <;> cases z' <;> first | exact absurd ih2 id | skip
          · dsimp only at ih2 ⊢
            cases compareValues t.kind a b with
            | none => exact ⟨rfl, ih2⟩
            | some result => exact ⟨rfl, .cons ⟨rfl, rfl, rfl, rfl⟩ ih2⟩
          · exact ⟨rfl, ih2⟩
          · exact ⟨rfl, trivial⟩
          · exact ⟨rfl, trivial⟩
        | err e => exact ⟨rfl, rfl⟩
        | panic => exact ⟨rfl, trivial⟩
        | hang => exact ⟨rfl, trivial⟩
      | err e => exact ⟨rfl, rfl⟩
      | panic => exact ⟨rfl, trivial⟩
      | hang => exact ⟨rfl, trivial⟩
    · rw [evalAsserts_skip call n1, evalAsserts_skip call n2]
      exact ih s

/-! ## Evaluation in states that differ only in parentheses -/

/-- States that differ only in parentheses, with known operators in all asserts. -/
structure AlikeSt (s s' : St F) : Prop where
  same : SameButParens s s'
  known : KnownTable s.ctx
  known' : KnownTable s'.ctx

def AlikeRes {α : Type} (x y : Res α × St F) : Prop := x.1 = y.1 ∧ AlikeSt x.2 y.2

def AlikeM {α : Type} (_ : Nat) (m m' : M F α) : Prop := ∀ s t, AlikeSt s t → AlikeRes (m s) (m' t)

theorem alike_lift {α : Type} (n : Nat) (r : Res α) : AlikeM (F := F) n (M.lift r) (M.lift r) := fun _ _ h => ⟨rfl, h⟩

theorem alike_bind {α β : Type} {m n : Nat} {x y : M F α} {f g : α → M F β} (h : AlikeM m x y) (h' : ∀ a, AlikeM n (f a) (g a)) :
    AlikeM (m + n) (x >>= f) (y >>= g) := by
  intro s t hs
  have h1 := h s t hs
  show AlikeRes (M.bind x f s) (M.bind y g t)
  unfold M.bind
  rcases hx : x s with ⟨r, s1⟩
  rcases hy : y t with ⟨r', t1⟩
  rw [hx, hy] at h1
  obtain ⟨h1, h2⟩ := h1
  dsimp only at h1
  subst h1
  cases r with
  | ok a => exact h' a s1 t1 h2
  | err e => exact ⟨rfl, h2⟩
  | panic => exact ⟨rfl, h2⟩
  | hang => exact ⟨rfl, h2⟩

theorem alike_closed : Closed (F := F) AlikeM where
  pure _ := fun _ _ h => ⟨rfl, h⟩
  bind := alike_bind
  mono := fun _ h => h
  ident n := by
    intro s t h
    have hg : s.ctx.get n = t.ctx.get n := by unfold Context.get; rw [h.same.variables]
    unfold readVar
    rw [hg]
    split <;> exact ⟨rfl, h⟩
  lift _ _ := alike_lift 0 _

theorem alike_write (n : Str) (v : Value F) : AlikeM 0 (writeVar n v) (writeVar n v) := by
  intro s t ⟨⟨h1, h2, h3, h4, h5⟩, k, k'⟩
  exact ⟨rfl, ⟨congrArg (amInsert n v) h1, h2, h3, h4, h5⟩, k, k'⟩

theorem alike_panics : AllowsPanic (F := F) AlikeM := fun _ => alike_lift 0 _

theorem alike_say (text : Str) : AlikeM (F := F) 0 (M.modify fun s => { s with out := s.out ++ text }) (M.modify fun s => { s with out := s.out ++ text }) := by
  intro s t ⟨⟨h1, h2, h3, h4, h5⟩, k, k'⟩
  exact ⟨rfl, ⟨h1, h2, h3, h4, congrArg (· ++ text) h5⟩, k, k'⟩

theorem alike_native (name : Str) (args : List (Value F)) : AlikeM 1 (callNative name args) (callNative name args) := by
  unfold callNative
  simp only [List.append_assoc]
  split
  · exact alike_bind (m := 1) (n := 0) (alike_lift 1 _) fun v => alike_bind (m := 0) (n := 0) (alike_say _) fun _ => alike_closed.pure _
  · split
    · exact alike_bind (m := 1) (n := 0) (alike_lift 1 _) fun v => alike_bind (m := 0) (n := 0) (alike_say _) fun _ => alike_closed.pure _
    · repeat (first | exact alike_lift 1 _ | split)

theorem each_snoc {α : Type} {R : α → α → Prop} {l m : List α} (h : Each R l m) {a b : α} (hab : R a b) : Each R (l ++ [a]) (m ++ [b]) := by
  induction h with
  | nil => exact .cons hab .nil
  | cons h1 _ ih => exact .cons h1 ih

theorem alike_request (net : Net) (call : Call F) (name msg : Str) {as as' : List (Expr F)} (h : Each SameAssert as as') (hk : ∀ a ∈ as, KnownOps a)
    (hk' : ∀ a ∈ as', KnownOps a) : AlikeM 1 (callRequest net call name msg as) (callRequest net call name msg as') := by
  intro s t hs
  rw [callRequest_exchange, callRequest_exchange, render_inner hs.same.variables, hs.same.sent]
  generalize render t.ctx msg = text
  generalize hbefore : t.sent = before
  clear hbefore
  revert s t
  show AlikeM (0 + 0) _ _
  unfold exchangeOf
  refine alike_bind (m := 0) (n := 0) (fun s t ⟨⟨h1, h2, h3, h4, h5⟩, k, k'⟩ => ⟨rfl, ⟨h1, h2, h3, congrArg (· ++ [text]) h4, h5⟩, k, k'⟩) fun _ => ?_
  refine alike_bind (m := 0) (n := 0) (alike_lift 0 _) fun p => ?_
  refine alike_bind (m := 0) (n := 0) (alike_lift 0 _) fun map => ?_
  intro s t ⟨⟨h1, h2, h3, h4, h5⟩, k, k'⟩
  show AlikeRes (M.bind _ _ s) (M.bind _ _ t)
  unfold M.bind inLocal
  rw [h4, h5]
  have hc := evalAsserts_parens call h hk hk' { ctx := Context.ofMap map, sent := t.sent, out := t.out }
  rcases hx : evalAsserts call as { ctx := Context.ofMap map, sent := t.sent, out := t.out } with ⟨x, u⟩
  rcases hy : evalAsserts call as' { ctx := Context.ofMap map, sent := t.sent, out := t.out } with ⟨y, v⟩
  rw [hx, hy] at hc
  obtain ⟨hc1, hc2⟩ := hc
  dsimp only at hc1 hc2
  subst hc1
  cases x <;> cases y <;> first | exact absurd hc2 id | skip
  · exact ⟨rfl, ⟨h1, h2, each_snoc h3 ⟨rfl, rfl, rfl, rfl, rfl, hc2⟩, rfl, rfl⟩, k, k'⟩
  · exact ⟨congrArg Res.err hc2, ⟨h1, h2, h3, rfl, rfl⟩, k, k'⟩
  · exact ⟨rfl, ⟨h1, h2, h3, rfl, rfl⟩, k, k'⟩
  · exact ⟨rfl, ⟨h1, h2, h3, rfl, rfl⟩, k, k'⟩

theorem sameDefinition_get {l l' : List (Str × (Str × List (Expr F)))} (h : Each SameDefinition l l') (n : Str) :
    (amGet n l = none ∧ amGet n l' = none) ∨ ∃ m as as', amGet n l = some (m, as) ∧ amGet n l' = some (m, as') ∧ Each SameAssert as as' ∧
      (∃ p ∈ l, p.2.2 = as) ∧ ∃ p ∈ l', p.2.2 = as' := by
  induction h with
  | nil => exact .inl ⟨rfl, rfl⟩
  | @cons p p' l l' hp _ ih =>
    obtain ⟨k, m, as⟩ := p
    obtain ⟨k', m', as'⟩ := p'
    obtain ⟨e1, e2, e3⟩ := hp
    dsimp only at e1 e2 e3
    subst e1 e2
    simp only [amGet]
    by_cases hn : k = n
    · rw [if_pos hn, if_pos hn]
      exact .inr ⟨m, as, as', rfl, rfl, e3, ⟨_, List.mem_cons_self .., rfl⟩, ⟨_, List.mem_cons_self .., rfl⟩⟩
    · rw [if_neg hn, if_neg hn]
      rcases ih with h | ⟨m, as, as', h1, h2, h3, ⟨q, hq, e⟩, ⟨q', hq', e'⟩⟩
      · exact .inl h
      · exact .inr ⟨m, as, as', h1, h2, h3, ⟨q, List.mem_cons_of_mem _ hq, e⟩, ⟨q', List.mem_cons_of_mem _ hq', e'⟩⟩

theorem alike_callAt (net : Net) : ∀ (n : Nat) (name : Str) (args : List (Value F)), AlikeM 1 (callAt net n name args) (callAt net n name args)
  | n, name, args => by
    intro s t hs
    have hd := sameDefinition_get hs.same.requests name
    cases n with
    | zero =>
      unfold callAt Context.request
      rcases hd with ⟨h1, h2⟩ | ⟨m, as, as', h1, h2, _⟩
      · rw [h1, h2]; exact alike_native name args s t hs
      · rw [h1, h2]; exact ⟨rfl, hs⟩
    | succ n =>
      unfold callAt Context.request
      rcases hd with ⟨h1, h2⟩ | ⟨m, as, as', h1, h2, h3, ⟨p, hp, e⟩, ⟨p', hp', e'⟩⟩
      · rw [h1, h2]; exact alike_native name args s t hs
      · rw [h1, h2]
        exact alike_request net _ name m h3 (e ▸ hs.known p hp) (e' ▸ hs.known' p' hp') s t hs

theorem alike_runBlock (net : Net) {es es' : List (Expr F)} (h : noParensList es = noParensList es') (hk : ∀ k, (false, k) ∈ opsList es → k.isBinary = true)
    (hk' : ∀ k, (false, k) ∈ opsList es' → k.isBinary = true) : AlikeM 0 (runBlock net es) (runBlock net es') := by
  have e : ∀ s, runBlock net es' s = runBlock net es s := by
    intro s
    unfold runBlock
    rw [← evalBlock_noParens _ es' .null hk', ← h, evalBlock_noParens _ es .null hk]
  intro s t hs
  rw [e t]
  exact evalBlock_closed alike_closed (alike_callAt net 1) es .null (fun n _ v => alike_write n v) (fun _ _ => .inl alike_panics) s t hs

/-! ## Sources -/

theorem sameDefinition_insert {l l' : List (Str × (Str × List (Expr F)))} (h : Each SameDefinition l l') (n m : Str) {as as' : List (Expr F)}
    (ha : Each SameAssert as as') : Each SameDefinition (amInsert n (m, as) l) (amInsert n (m, as') l') := by
  induction h with
  | nil => exact .cons ⟨rfl, rfl, ha⟩ .nil
  | @cons p p' l l' hp hl ih =>
    obtain ⟨k, m1, as1⟩ := p
    obtain ⟨k', m1', as1'⟩ := p'
    obtain ⟨e1, e2, e3⟩ := hp
    dsimp only at e1 e2 e3
    subst e1 e2
    simp only [amInsert]
    by_cases hn : k = n
    · rw [if_pos hn, if_pos hn]; exact .cons ⟨rfl, rfl, ha⟩ hl
    · rw [if_neg hn, if_neg hn]; exact .cons ⟨rfl, rfl, e3⟩ ih

theorem sameDefinition_extend {l l' : List (Str × (Str × List (Expr F)))} (h : Each SameDefinition l l') {m m' : List (Str × (Str × List (Expr F)))}
    (hm : Each SameDefinition m m') : Each SameDefinition (amExtend l m) (amExtend l' m') := by
  induction hm generalizing l l' with
  | nil => exact h
  | @cons p p' m m' hp _ ih =>
    obtain ⟨k, t, as⟩ := p
    obtain ⟨k', t', as'⟩ := p'
    obtain ⟨e1, e2, e3⟩ := hp
    dsimp only at e1 e2 e3
    subst e1 e2
    exact ih (sameDefinition_insert h k t e3)

theorem noParensList_append (a b : List (Expr F)) : noParensList (a ++ b) = noParensList a ++ noParensList b := by
  induction a with
  | nil => rfl
  | cons e a ih => simp [noParensList, ih]

theorem sameItems_source {is is' : List (Item F)} (h : Each SameItem is is') : ∀ {src src' : Source F}, noParensList src.exprs = noParensList src'.exprs →
    Each SameDefinition src.requests src'.requests →
    noParensList (is.foldl addItem src).exprs = noParensList (is'.foldl addItem src').exprs ∧
      Each SameDefinition (is.foldl addItem src).requests (is'.foldl addItem src').requests := by
  induction h with
  | nil => intro src src' h1 h2; exact ⟨h1, h2⟩
  | cons hi _ ih =>
    intro src src' h1 h2
    rw [List.foldl_cons, List.foldl_cons]
    cases hi with
    | expr e e' he => exact ih (by simp [addItem, noParensList_append, noParensList, h1, he]) h2
    | request n m as as' ha => exact ih h1 (sameDefinition_insert h2 n m ha)
    | test n b b' _ => exact ih h1 h2

theorem mem_amExtend {V : Type} {m : List (Str × V)} : ∀ {l : List (Str × V)} {p : Str × V}, p ∈ amExtend l m → p ∈ l ∨ p ∈ m := by
  induction m with
  | nil => intro l p h; exact .inl h
  | cons q m ih =>
    intro l p h
    rcases ih (l := amInsert q.1 q.2 l) h with h | h
    · rcases mem_amInsert h with h | h
      · exact .inr (h ▸ List.mem_cons_self ..)
      · exact .inl h
    · exact .inr (List.mem_cons_of_mem _ h)

/-- What a source text adds keeps the operators known. -/
theorem known_extend {text : Str} {src : Source F} (hp : parse text = .ok src) {c : Context F} (h : KnownTable c) : KnownTable (c.extend src.requests) := by
  intro p hm a ha
  rcases mem_amExtend hm with h1 | h1
  · exact h p h1 a ha
  · exact grouped_known (groupedAll_mem ((c08_grouped_partial text src hp).2.1 p h1) a ha)

end Am
