import Verif.Model.Exit
/-!
# Two runs side by side

One evaluation with the runtime `i` and the network `net`, another with the runtime `i` in which overflow checks are set to `b` and the
network `net'`. The states agree up to a function `g` on records. `may` says whether the first run is allowed to panic where the second
does not.
-/
set_option linter.unusedSimpArgs false
set_option linter.unusedVariables false
set_option linter.unusedSectionVars false
namespace Am
variable {F : Type}

/-- The runtime `i` with overflow checks switched on or off. -/
abbrev setChecks (i : Rt F) (b : Bool) : Rt F := { i with checks := b }

section same
set_option smartUnfolding false
variable (i : Rt F) (b : Bool)
theorem setChecks_display : @Value.display F (setChecks i b) = @Value.display F i := by with_unfolding_all rfl
theorem setChecks_exprDisplay : @Expr.display F (setChecks i b) = @Expr.display F i := by with_unfolding_all rfl
theorem setChecks_index : @indexValue F (setChecks i b) = @indexValue F i := by with_unfolding_all rfl
theorem setChecks_field : @fieldValue F (setChecks i b) = @fieldValue F i := by with_unfolding_all rfl
theorem setChecks_native : @callNative F (setChecks i b) = @callNative F i := by with_unfolding_all rfl
theorem setChecks_render : @render F (setChecks i b) = @render F i := by with_unfolding_all rfl
theorem setChecks_compare : @compareValues F (setChecks i b) = @compareValues F i := by with_unfolding_all rfl
theorem setChecks_toMap : @Response.toMap F (setChecks i b) = @Response.toMap F i := by with_unfolding_all rfl
theorem setChecks_parse : @parse F (setChecks i b) = @parse F i := by with_unfolding_all rfl
theorem setChecks_stats : @Stats.text F (setChecks i b) = @Stats.text F i := by with_unfolding_all rfl
end same

/-- The state with `g` applied to every record. -/
def St.onRecords (g : Record → Record) (s : St F) : St F := { s with ctx := { s.ctx with records := s.ctx.records.map g } }

/-- Two states that differ in nothing but what `g` removes from records. -/
def Agrees (g : Record → Record) (s t : St F) : Prop := s.onRecords g = t.onRecords g

/-- What the first state has sent and printed begins what the second has sent and printed. -/
def Behind (s t : St F) : Prop := s.sent <+: t.sent ∧ s.out <+: t.out

/-- The outcomes of two runs: the same, or the first has crashed on the way. -/
def Tied (g : Record → Record) (may : Prop) {α : Type} (x y : Res α × St F) : Prop :=
  x.1 = y.1 ∧ Agrees g x.2 y.2 ∨ may ∧ x.1 = .panic ∧ Behind x.2 y.2

/-- The same for calls without effects. -/
def TiedRes (may : Prop) {α : Type} (x y : Res α) : Prop := x = y ∨ may ∧ x = .panic

/-- Nothing sent or printed is taken back. -/
def Grows {α : Type} (m : M F α) : Prop := ∀ s, Behind s (m s).2

variable {g : Record → Record} {may : Prop}

theorem agrees_iff {s t : St F} : Agrees g s t ↔ s.ctx.inner = t.ctx.inner ∧ s.ctx.requests = t.ctx.requests ∧
    s.ctx.records.map g = t.ctx.records.map g ∧ s.sent = t.sent ∧ s.out = t.out := by
  obtain ⟨⟨a, b, c⟩, d, e⟩ := s
  obtain ⟨⟨a', b', c'⟩, d', e'⟩ := t
  simp [Agrees, St.onRecords, and_assoc]

theorem Agrees.refl (s : St F) : Agrees g s s := rfl

theorem Behind.refl (s : St F) : Behind s s := ⟨List.prefix_refl _, List.prefix_refl _⟩

theorem Behind.trans {s t u : St F} (h : Behind s t) (h' : Behind t u) : Behind s u := ⟨h.1.trans h'.1, h.2.trans h'.2⟩

theorem Agrees.behind {s t : St F} (h : Agrees g s t) : Behind s t := by
  obtain ⟨_, _, _, h1, h2⟩ := agrees_iff.1 h
  exact ⟨h1 ▸ List.prefix_refl _, h2 ▸ List.prefix_refl _⟩

/-! ## Growth -/

theorem grows_pure {α : Type} (a : α) : Grows (M.pure a : M F α) := fun s => Behind.refl s

theorem grows_lift {α : Type} (r : Res α) : Grows (M.lift r : M F α) := fun s => Behind.refl s

theorem grows_bind {α β : Type} {m : M F α} {f : α → M F β} (h : Grows m) (h' : ∀ a, Grows (f a)) : Grows (M.bind m f) := by
  intro s
  have h1 := h s
  unfold M.bind
  cases hm : m s with
  | mk r t =>
    rw [hm] at h1
    cases r with
    | ok a => exact h1.trans (h' a t)
    | err e => exact h1
    | panic => exact h1
    | hang => exact h1

theorem grows_orElse {α : Type} {m : M F α} {d : α} (h : Grows m) : Grows (m.orElse d) := by
  intro s
  have h1 := h s
  unfold M.orElse
  cases hm : m s with
  | mk r t =>
    rw [hm] at h1
    cases r <;> exact h1

theorem grows_modify {f : St F → St F} (h : ∀ s, Behind s (f s)) : Grows (M.modify f) := fun s => h s

section grow
variable [Rt F] {call : Call F} (hc : ∀ n vs, Grows (call n vs))
include hc

mutual
theorem evalExpr_grows : ∀ e : Expr F, Grows (evalExpr call e)
  | .int _ => grows_pure _
  | .float _ => grows_pure _
  | .bool _ => grows_pure _
  | .str _ => grows_pure _
  | .arr items => by
    rw [evalExpr]
    exact grows_bind (evalList_grows items) (fun _ => grows_pure _)
  | .map pairs => by
    rw [evalExpr]
    exact grows_bind (evalPairs_grows pairs []) (fun _ => grows_pure _)
  | .index l i => by
    rw [evalExpr]
    exact grows_bind (evalExpr_grows l) (fun _ => grows_bind (evalExpr_grows i) (fun _ => grows_lift _))
  | .field l n => by
    rw [evalExpr]
    exact grows_bind (evalExpr_grows l) (fun _ => grows_lift _)
  | .ident n => by
    rw [evalExpr]
    intro s
    dsimp only
    split <;> exact Behind.refl s
  | .letE n e => by
    rw [evalExpr]
    exact grows_bind (evalExpr_grows e) (fun _ => grows_bind (grows_modify fun s => Behind.refl s) (fun _ => grows_pure _))
  | .unary t r => by
    rw [evalExpr]
    exact grows_bind (evalExpr_grows r) (fun _ => grows_lift _)
  | .binary t l r => by
    rw [evalExpr]
    have ihl := evalExpr_grows l
    have ihr := evalExpr_grows r
    split
    · exact grows_bind ihl (fun _ => grows_bind ihr (fun _ => grows_lift _))
    · split
      · refine grows_bind ihl (fun a => ?_)
        split
        · exact ihr
        · exact grows_pure _
      · split
        · refine grows_bind ihl (fun a => ?_)
          split
          · exact grows_pure _
          · exact ihr
        · exact grows_lift _
  | .paren e => by
    rw [evalExpr]
    exact evalExpr_grows e
  | .ifE c t e => by
    rw [evalExpr]
    have ih1 := evalBlock_grows e .null
    have ih2 := evalBlock_grows t .null
    refine grows_bind (evalExpr_grows c) (fun a => ?_)
    split
    · exact ih1
    · exact ih2
  | .call f args => by
    rw [evalExpr]
    exact grows_bind (evalList_grows args) (fun vs => hc f vs)
termination_by structural e => e
theorem evalList_grows : ∀ l : List (Expr F), Grows (evalList call l)
  | [] => grows_pure _
  | e :: l => by
    rw [evalList]
    exact grows_bind (evalExpr_grows e) (fun _ => grows_bind (evalList_grows l) (fun _ => grows_pure _))
termination_by structural l => l
theorem evalPairs_grows : ∀ (l : List (Expr F × Expr F)) (acc : List (Str × Value F)), Grows (evalPairs call acc l)
  | [], acc => grows_pure _
  | (k, v) :: l, acc => by
    rw [evalPairs]
    exact grows_bind (evalExpr_grows k) (fun _ => grows_bind (evalExpr_grows v) (fun _ => evalPairs_grows l _))
termination_by structural l => l
theorem evalBlock_grows : ∀ (l : List (Expr F)) (acc : Value F), Grows (evalBlock call acc l)
  | [], acc => grows_pure _
  | e :: l, acc => by
    rw [evalBlock]
    exact grows_bind (evalExpr_grows e) (fun _ => evalBlock_grows l _)
termination_by structural l => l
end

theorem evalAsserts_grows : ∀ l : List (Expr F), Grows (evalAsserts call l)
  | [] => grows_pure _
  | e :: rest => by
    have ih := evalAsserts_grows rest
    cases e with
    | binary t l r =>
      rw [evalAsserts]
      refine grows_bind (grows_orElse (evalExpr_grows hc l)) (fun a => grows_bind (grows_orElse (evalExpr_grows hc r)) (fun b =>
        grows_bind ih (fun as => ?_)))
      split <;> exact grows_pure _
    | _ => exact ih

theorem callRequest_grows (net : Net) (name msg : Str) (asserts : List (Expr F)) : Grows (callRequest net call name msg asserts) := by
  unfold callRequest
  refine grows_bind (m := M.get) (fun s => Behind.refl s) (fun s => ?_)
  refine grows_bind (grows_modify fun s => ⟨List.prefix_append _ _, List.prefix_refl _⟩) (fun _ => ?_)
  refine grows_bind (grows_lift _) (fun p => ?_)
  refine grows_bind (grows_lift _) (fun map => ?_)
  refine grows_bind (m := inLocal map (evalAsserts call asserts)) ?_ (fun p => ?_)
  · intro s
    have h := evalAsserts_grows hc asserts { s with ctx := Context.ofMap map }
    unfold inLocal
    cases hm : evalAsserts call asserts { s with ctx := Context.ofMap map } with
    | mk r t =>
      rw [hm] at h
      cases r <;> exact h
  · exact grows_bind (grows_modify fun s => Behind.refl s) (fun _ => grows_pure _)
end grow

theorem callNative_grows [Rt F] (name : Str) (args : List (Value F)) : Grows (callNative name args) := by
  unfold callNative
  split
  · refine grows_bind (grows_lift _) (fun v => grows_bind (grows_modify fun s => ⟨List.prefix_refl _, ?_⟩) (fun _ => grows_pure _))
    simp only [List.append_assoc]
    exact List.prefix_append _ _
  · split
    · refine grows_bind (grows_lift _) (fun v => grows_bind (grows_modify fun s => ⟨List.prefix_refl _, ?_⟩) (fun _ => grows_pure _))
      exact List.prefix_append _ _
    · split
      · exact grows_lift _
      · split
        · exact grows_lift _
        · split <;> exact grows_lift _

theorem callAt_grows [Rt F] (net : Net) : ∀ (n : Nat) (name : Str) (args : List (Value F)), Grows (callAt net n name args)
  | 0, name, args => by
    intro s
    unfold callAt
    split
    · exact Behind.refl s
    · exact callNative_grows name args s
  | n + 1, name, args => by
    intro s
    have hc := callAt_grows net n
    unfold callAt
    split
    · exact callRequest_grows hc net name _ _ s
    · exact callNative_grows name args s

theorem runBlock_grows [Rt F] (net : Net) (es : List (Expr F)) : Grows (runBlock net es) := evalBlock_grows (callAt_grows net 1) es .null

/-! ## The two runs -/

/-- The same evaluation twice. -/
def TiedM (g : Record → Record) (may : Prop) {α : Type} (m m' : M F α) : Prop := ∀ s t, Agrees g s t → Tied g may (m s) (m' t)

theorem tied_pure {α : Type} (a : α) : TiedM (F := F) g may (M.pure a) (M.pure a) := fun _ _ h => .inl ⟨rfl, h⟩

theorem tied_lift {α : Type} {x y : Res α} (h : TiedRes may x y) : TiedM (F := F) g may (M.lift x) (M.lift y) := by
  intro s t hs
  rcases h with h | ⟨h, h'⟩
  · exact .inl ⟨h, hs⟩
  · exact .inr ⟨h, h', hs.behind⟩

theorem tied_bind {α β : Type} {m m' : M F α} {f f' : α → M F β} (h : TiedM g may m m') (h' : ∀ a, TiedM g may (f a) (f' a))
    (hg : ∀ a, Grows (f' a)) : TiedM g may (M.bind m f) (M.bind m' f') := by
  intro s t hs
  have h1 := h s t hs
  unfold M.bind
  rcases hm : m s with ⟨r, s1⟩
  rcases hm' : m' t with ⟨r', t1⟩
  rw [hm, hm'] at h1
  rcases h1 with ⟨h1, h2⟩ | ⟨h1, h2, h3⟩
  · cases h1
    cases r with
    | ok a => exact h' a s1 t1 h2
    | err e => exact .inl ⟨rfl, h2⟩
    | panic => exact .inl ⟨rfl, h2⟩
    | hang => exact .inl ⟨rfl, h2⟩
  · cases h2
    refine .inr ⟨h1, rfl, ?_⟩
    cases r' with
    | ok a => exact h3.trans (hg a t1)
    | err e => exact h3
    | panic => exact h3
    | hang => exact h3

theorem tied_orElse {α : Type} {m m' : M F α} {d : α} (h : TiedM g may m m') : TiedM g may (m.orElse d) (m'.orElse d) := by
  intro s t hs
  have h1 := h s t hs
  unfold M.orElse
  rcases hm : m s with ⟨r, s1⟩
  rcases hm' : m' t with ⟨r', t1⟩
  rw [hm, hm'] at h1
  rcases h1 with ⟨h1, h2⟩ | ⟨h1, h2, h3⟩
  · cases h1
    cases r <;> exact .inl ⟨rfl, h2⟩
  · cases h2
    refine .inr ⟨h1, rfl, ?_⟩
    cases r' <;> exact h3

theorem tied_modify {f f' : St F → St F} (h : ∀ s t, Agrees g s t → Agrees g (f s) (f' t)) : TiedM g may (M.modify f) (M.modify f') :=
  fun s t hs => .inl ⟨rfl, h s t hs⟩

section ops
variable (i : Rt F) (b : Bool) (hb : may ∧ i.checks = true ∨ b = i.checks)
include hb

theorem checked_tied (e : Int) : TiedRes may (@checked F i e) (@checked F (setChecks i b) e) := by
  unfold checked
  by_cases h : i64Min ≤ e ∧ e ≤ i64Max
  · rw [if_pos h, if_pos h]; exact .inl rfl
  · rw [if_neg h, if_neg h]
    rcases hb with ⟨h1, h2⟩ | h2
    · have : Rt.checks F = true := h2
      rw [if_pos this]; exact .inr ⟨h1, rfl⟩
    · subst h2; exact .inl rfl

theorem shiftAmount_tied (r : Int64) : TiedRes may (@shiftAmount F i r) (@shiftAmount F (setChecks i b) r) := by
  unfold shiftAmount
  by_cases h : 0 ≤ r.toInt ∧ r.toInt < 64
  · rw [if_pos h, if_pos h]; exact .inl rfl
  · rw [if_neg h, if_neg h]
    rcases hb with ⟨h1, h2⟩ | h2
    · have : Rt.checks F = true := h2
      rw [if_pos this]; exact .inr ⟨h1, rfl⟩
    · subst h2; exact .inl rfl

omit hb in
theorem tiedRes_bind {α β : Type} {x y : Res α} (h : TiedRes may x y) (f : α → Res β) : TiedRes may (x >>= f) (y >>= f) := by
  rcases h with h | ⟨h, h'⟩
  · subst h; exact .inl rfl
  · subst h'; exact .inr ⟨h, rfl⟩

set_option smartUnfolding false in
theorem unary_tied (t : Token) (v : Value F) : TiedRes may (@unaryValue F i t v) (@unaryValue F (setChecks i b) t v) := by
  have hc := fun e => checked_tied i b hb e
  rcases t with ⟨k, l⟩
  cases k <;> cases v <;> first | exact .inl (by with_unfolding_all rfl) | exact tiedRes_bind (hc _) _

set_option smartUnfolding false in
theorem binary_tied (k : Kind) : (@binaryOp F i k = none ∧ @binaryOp F (setChecks i b) k = none) ∨
    ∃ o o', @binaryOp F i k = some o ∧ @binaryOp F (setChecks i b) k = some o' ∧ ∀ x y, TiedRes may (o x y) (o' x y) := by
  have hc := fun e => checked_tied i b hb e
  have hs := fun e => shiftAmount_tied i b hb e
  cases k <;> first
    | exact .inl ⟨rfl, rfl⟩
    | (refine .inr ⟨_, _, rfl, rfl, fun x y => ?_⟩
       cases x <;> cases y <;> first | exact .inl (by with_unfolding_all rfl) | exact tiedRes_bind (hc _) _ | exact tiedRes_bind (hs _) _)
end ops

end Am
