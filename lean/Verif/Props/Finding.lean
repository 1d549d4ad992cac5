import Verif.Spec.Finding
import Verif.Props.Flow
import Verif.Props.AnyOrder
import Verif.Props.Asserting
/-! # C128: names that are defined are found -/
set_option linter.unusedSimpArgs false
set_option linter.unusedSectionVars false
namespace Am
open Spec
variable {F : Type} [Rt F]

/-- Every error of `r` is not about a missing name. -/
def NamesFine {α : Type} (r : Res α) : Prop := ∀ e, r = .err e → ¬ NameError e

theorem nameError_first {e : Str} (h : NameError e) : (∃ t, e = 'i' :: 'd' :: t) ∨ (∃ t, e = 'f' :: 'u' :: t ∧ e.getLast? = some 'd') := by
  obtain ⟨n, rfl | rfl⟩ := h
  · exact .inl ⟨_, rfl⟩
  · exact .inr ⟨_, rfl, by rw [List.getLast?_append]; rfl⟩

theorem index_names (v k : Value F) : NamesFine (indexValue v k) := by
  intro e h hn
  rw [index_error h] at hn
  rcases nameError_first hn with ⟨t, h⟩ | ⟨t, h, _⟩ <;> cases h

theorem field_names (v : Value F) (n : Str) : NamesFine (fieldValue v n) := by
  intro e h hn
  rw [field_error h] at hn
  rcases nameError_first hn with ⟨t, h⟩ | ⟨t, h, _⟩ <;> cases h

theorem unary_names (t : Token) (v : Value F) : NamesFine (unaryValue t v) := by
  intro e h hn
  rw [unary_error h] at hn
  rcases nameError_first hn with ⟨t, h⟩ | ⟨t, h, _⟩ <;> cases h

theorem binary_names {k : Kind} {op : Value F → Value F → Res (Value F)} (ho : binaryOp k = some op) (a b : Value F) : NamesFine (op a b) := by
  intro e h hn
  rw [binary_error ho h] at hn
  rcases nameError_first hn with ⟨t, h⟩ | ⟨t, h, _⟩ <;> cases h

theorem format_names (vs : List (Value F)) : NamesFine (nativeFormat vs) := by
  intro e h hn
  unfold nativeFormat at h
  split at h
  · dsimp only at h
    split at h
    · cases h
      rcases nameError_first hn with ⟨t, h⟩ | ⟨t, h, _⟩ <;> cases h
    · cases h
  · cases h
    rcases nameError_first hn with ⟨t, h⟩ | ⟨t, _, h⟩ <;> cases h
  · cases h
    rcases nameError_first hn with ⟨t, h⟩ | ⟨t, h, _⟩ <;> cases h

theorem append_names (vs : List (Value F)) : NamesFine (nativeAppend vs) := by
  intro e h hn
  unfold nativeAppend at h
  split at h
  · cases h
  · cases h
    rcases nameError_first hn with ⟨t, h⟩ | ⟨t, _, h⟩ <;> cases h
  · cases h
    rcases nameError_first hn with ⟨t, h⟩ | ⟨t, h, _⟩ <;> cases h

theorem length_names (vs : List (Value F)) : NamesFine (nativeLength vs) := by
  intro e h hn
  have last : ∀ (a b : Str) (c : Char), c ≠ 'd' → e = a ++ (b ++ [c]) → False := by
    intro a b c hc he
    rcases nameError_first hn with ⟨t, h1⟩ | ⟨t, _, h1⟩
    · unfold nativeLength at h
      split at h <;> cases h <;> cases h1
    · rw [he, ← List.append_assoc, List.getLast?_append] at h1
      simp at h1
      exact hc h1
  unfold nativeLength at h
  split at h
  · cases h
  · cases h
  · cases h
  · rename_i v _ _ _
    cases h
    cases v with
    | int i => exact last _ (c!"Integer(" ++ intStr i.toInt) ')' (by decide) rfl
    | float f => exact last _ (c!"Float(" ++ Rt.fdebug f) ')' (by decide) rfl
    | bool b => exact last _ (c!"Boolean(" ++ boolStr b) ')' (by decide) rfl
    | null => exact last _ c!"Nul" 'l' (by decide) rfl
    | str s => rename_i h1 _ _; exact h1 s rfl
    | arr l => rename_i _ h1 _; exact h1 l rfl
    | map l => rename_i _ _ h1; exact h1 l rfl
  · cases h
    rcases nameError_first hn with ⟨t, h⟩ | ⟨t, h, _⟩ <;> cases h

/-! ## Evaluation -/

/-- Starting with values for `D`, `m` keeps the requests and those values, sends only filled messages, gives values to `D'` if it succeeds, and does not
fail for a missing name. -/
def Finds (table : List (Str × (Str × List (Expr F)))) (D D' : Str → Prop) {α : Type} (m : M F α) : Prop :=
  ∀ s, s.ctx.requests = table → HaveValues D s → (m s).2.ctx.requests = table ∧ HaveValues D (m s).2 ∧
    (∃ l, (m s).2.sent = s.sent ++ l ∧ ∀ x ∈ l, FilledIn table x) ∧ (∀ a, (m s).1 = .ok a → HaveValues D' (m s).2) ∧ NamesFine (m s).1

variable {table : List (Str × (Str × List (Expr F)))} {D D1 D' : Str → Prop}

theorem Finds.weaken {α : Type} {m : M F α} (h : Finds table D D1 m) (hd : ∀ x, D' x → D1 x) : Finds table D D' m := by
  intro s hs hv
  obtain ⟨h1, h2, h3, h4, h5⟩ := h s hs hv
  exact ⟨h1, h2, h3, fun a hr x hx => h4 a hr x (hd x hx), h5⟩

theorem Finds.lift {α : Type} {r : Res α} (hr : NamesFine r) : Finds table D D (M.lift r : M F α) :=
  fun _ hs hv => ⟨hs, hv, ⟨[], (List.append_nil _).symm, (fun _ h => nomatch h)⟩, fun _ _ => hv, hr⟩

theorem Finds.pure {α : Type} (a : α) : Finds table D D (M.pure a : M F α) := Finds.lift (fun _ h => nomatch h)

theorem Finds.bind {α β : Type} {m : M F α} {f : α → M F β} (hm : Finds table D D1 m) (hd : ∀ x, D x → D1 x) (hf : ∀ a, Finds table D1 D' (f a)) :
    Finds table D D' (m >>= f) := by
  intro s hs hv
  obtain ⟨h1, h2, ⟨l, h3, hl⟩, h4, h5⟩ := hm s hs hv
  cases hr : m s with | mk r s' =>
  rw [hr] at h1 h2 h3 h4 h5
  dsimp only at h1 h2 h3 h4 h5
  cases r with
  | ok a =>
    rw [M.bind_ok hr]
    obtain ⟨g1, g2, ⟨l', g3, gl⟩, g4, g5⟩ := hf a s' h1 (h4 a rfl)
    refine ⟨g1, fun x hx => g2 x (hd x hx), ⟨l ++ l', by rw [g3, h3, List.append_assoc], fun x hx => ?_⟩, g4, g5⟩
    exact (List.mem_append.1 hx).elim (hl x) (gl x)
  | err e => rw [M.bind_err hr]; exact ⟨h1, h2, ⟨l, h3, hl⟩, (fun a h => nomatch h), fun e' h => h5 e' (by cases h; rfl)⟩
  | panic => rw [M.bind_panic hr]; exact ⟨h1, h2, ⟨l, h3, hl⟩, (fun a h => nomatch h), (fun e' h => nomatch h)⟩
  | hang => rw [M.bind_hang hr]; exact ⟨h1, h2, ⟨l, h3, hl⟩, (fun a h => nomatch h), (fun e' h => nomatch h)⟩

theorem Finds.out (f : Str → Str) : Finds table D D (M.modify (F := F) fun s => { s with out := f s.out }) :=
  fun _ hs hv => ⟨hs, hv, ⟨[], (List.append_nil _).symm, (fun _ h => nomatch h)⟩, fun _ _ => hv, (fun _ h => nomatch h)⟩

theorem Finds.native {name : Str} (hn : name ∈ builtins) (vs : List (Value F)) : Finds table D D (callNative name vs) := by
  unfold callNative
  split
  · exact Finds.bind (D1 := D) (Finds.lift (format_names vs)) (fun _ h => h) fun v =>
      Finds.bind (Finds.out (fun o => o ++ v.display ++ c!"\n")) (fun _ h => h) fun _ => Finds.pure _
  · split
    · exact Finds.bind (D1 := D) (Finds.lift (format_names vs)) (fun _ h => h) fun v =>
        Finds.bind (Finds.out (fun o => o ++ v.display)) (fun _ h => h) fun _ => Finds.pure _
    · split
      · exact Finds.lift (format_names vs)
      · split
        · exact Finds.lift (length_names vs)
        · split
          · exact Finds.lift (append_names vs)
          · rename_i h1 h2 h3 h4 h5
            simp [builtins, h1, h2, h3, h4, h5] at hn

theorem Finds.call (net : Net) {f : Str} (hf : amGet f table ≠ none ∨ f ∈ builtins) (vs : List (Value F)) (hk : KnownCall table D f) :
    Finds table D D (callAt net 1 f vs) := by
  intro s hs hv
  cases hr : amGet f table with
  | none =>
    rw [callAt_none net vs (show s.ctx.request f = none by rw [Context.request, hs, hr])]
    exact Finds.native (hf.resolve_left fun h => h hr) vs s hs hv
  | some p =>
    obtain ⟨message, asserts⟩ := p
    rw [callAt_some net vs (show s.ctx.request f = some (message, asserts) by rw [Context.request, hs, hr])]
    obtain ⟨ps, h1, _, h3⟩ := c27_render s.ctx message
    have hfill : ∀ x ∈ [render s.ctx message], FilledIn table x := by
      intro x hx
      cases List.mem_singleton.1 hx
      exact ⟨f, message, asserts, ps, hr, h1, fun n => amGet n s.ctx.inner, fun y hy => hv y (hk message asserts ps y hr h1 hy), h3⟩
    rcases callRequest_cases net 0 f message asserts s with ⟨rq, rs, t, e, map, as, ctx', o, _, _, _, h⟩ | ⟨o, h, _⟩ | ⟨o, h, _⟩
    all_goals rw [h]
    · exact ⟨hs, hv, ⟨_, rfl, hfill⟩, fun _ _ => hv, (fun _ h => nomatch h)⟩
    · exact ⟨hs, hv, ⟨_, rfl, hfill⟩, (fun _ h => nomatch h), (fun _ h => nomatch h)⟩
    · exact ⟨hs, hv, ⟨_, rfl, hfill⟩, (fun _ h => nomatch h), (fun _ h => nomatch h)⟩

theorem Finds.write (n : Str) (v : Value F) : Finds table D (more D [n]) (writeVar n v) := by
  intro s hs hv
  have key : HaveValues (more D [n]) (writeVar n v s).2 := by
    intro x hx
    simp only [writeVar, M.modify, Context.get, Context.set, amGet_insert]
    split
    · simp
    · rename_i hne
      rcases hx with hx | hx
      · exact hv x hx
      · exact absurd (List.mem_singleton.1 hx).symm (fun h => hne (by simp [h]))
  exact ⟨hs, fun x hx => key x (.inl hx), ⟨[], (List.append_nil _).symm, (fun _ h => nomatch h)⟩, fun _ _ => key, (fun _ h => nomatch h)⟩

mutual
theorem finds_expr (net : Net) : ∀ (e : Expr F) (D : Str → Prop), (∀ f ∈ called e, amGet f table ≠ none ∨ f ∈ builtins) → KnownIn table D e →
    Finds table D (more D (sure e)) (evalExpr (callAt net 1) e)
  | .int _, D, _, _ | .float _, D, _, _ | .bool _, D, _, _ | .str _, D, _, _ => by
    simp only [evalExpr, sure]; exact (Finds.pure _).weaken (fun x h => h.elim id (fun h => nomatch h))
  | .ident n, D, _, h => by
    simp only [KnownIn] at h
    intro s hs hv
    simp only [evalExpr]
    cases hg : s.ctx.get n with
    | some v => exact ⟨hs, hv, ⟨[], (List.append_nil _).symm, (fun _ h => nomatch h)⟩, fun _ _ x hx => hv x (hx.elim id (fun h => nomatch h)), (fun _ h => nomatch h)⟩
    | none => exact absurd hg (hv n h)
  | .arr items, D, hc, h => by
    simp only [KnownIn] at h
    simp only [evalExpr, sure]
    exact Finds.bind (finds_list net items D hc h) more_self (fun _ => Finds.pure _)
  | .map pairs, D, hc, h => by
    simp only [KnownIn] at h
    simp only [evalExpr, sure]
    exact Finds.bind (finds_pairs net pairs D [] hc h) more_self (fun _ => Finds.pure _)
  | .index l i, D, hc, h => by
    simp only [KnownIn] at h
    simp only [evalExpr, sure]
    refine Finds.bind (finds_expr net l D (fun f hf => hc f (List.mem_append_left _ hf)) h.1) more_self (fun v =>
      Finds.bind (finds_expr net i _ (fun f hf => hc f (List.mem_append_right _ hf)) h.2) more_self (fun w => (Finds.lift (index_names v w)).weaken ?_))
    intro x hx
    rcases hx with hx | hx
    · exact Or.inl (Or.inl hx)
    · exact (List.mem_append.1 hx).elim (fun h => Or.inl (Or.inr h)) Or.inr
  | .field l n, D, hc, h => by
    simp only [KnownIn] at h
    simp only [evalExpr, sure]
    exact Finds.bind (finds_expr net l D hc h) more_self (fun v => Finds.lift (field_names v n))
  | .letE n v, D, hc, h => by
    simp only [KnownIn] at h
    simp only [evalExpr, sure]
    refine Finds.bind (finds_expr net v D hc h) more_self (fun w => Finds.bind (Finds.write n w) more_self (fun _ => (Finds.pure _).weaken ?_))
    intro x hx
    rcases hx with hx | hx
    · exact Or.inl (Or.inl hx)
    · rcases List.mem_cons.1 hx with rfl | hx
      · exact Or.inr List.mem_cons_self
      · exact Or.inl (Or.inr hx)
  | .unary t r, D, hc, h => by
    simp only [KnownIn] at h
    simp only [evalExpr, sure]
    exact Finds.bind (finds_expr net r D hc h) more_self (fun v => Finds.lift (unary_names t v))
  | .binary t l r, D, hc, h => by
    have hl := fun f hf => hc f (List.mem_append_left _ hf)
    have hr := fun f hf => hc f (List.mem_append_right _ hf)
    simp only [KnownIn] at h
    simp only [evalExpr, sure]
    cases ho : binaryOp (F := F) t.kind with
    | some op =>
      have : ¬ (t.kind = .La ∨ t.kind = .Lo) := by
        rintro (h | h) <;> rw [h] at ho <;> cases ho
      rw [if_neg this]
      refine Finds.bind (finds_expr net l D hl h.1) more_self (fun v => Finds.bind (finds_expr net r _ hr h.2) more_self (fun w =>
        (Finds.lift (binary_names ho v w)).weaken ?_))
      intro x hx
      rcases hx with hx | hx
      · exact Or.inl (Or.inl hx)
      · exact (List.mem_append.1 hx).elim (fun h => Or.inl (Or.inr h)) Or.inr
    | none =>
      dsimp only
      by_cases hk : t.kind = .Lo
      · rw [if_pos hk, if_pos (Or.inr hk)]
        refine Finds.bind (finds_expr net l D hl h.1) more_self (fun v => ?_)
        split
        · exact (finds_expr net r _ hr h.2).weaken (fun x hx => Or.inl hx)
        · exact Finds.pure _
      · rw [if_neg hk]
        by_cases hk : t.kind = .La
        · rw [if_pos hk, if_pos (Or.inl hk)]
          refine Finds.bind (finds_expr net l D hl h.1) more_self (fun v => ?_)
          split
          · exact Finds.pure _
          · exact (finds_expr net r _ hr h.2).weaken (fun x hx => Or.inl hx)
        · rw [if_neg hk]
          intro s hs hv
          refine ⟨hs, hv, ⟨[], (List.append_nil _).symm, (fun _ h => nomatch h)⟩, (fun a h => nomatch h), fun e he hn => ?_⟩
          cases he
          rcases nameError_first hn with ⟨t, h⟩ | ⟨t, h, _⟩ <;> cases h
  | .paren v, D, hc, h => by
    simp only [KnownIn] at h
    simp only [evalExpr, sure]
    exact finds_expr net v D hc h
  | .ifE c t e, D, hc, h => by
    simp only [KnownIn] at h
    simp only [evalExpr, sure]
    refine Finds.bind (finds_expr net c D (fun f hf => hc f (List.mem_append_left _ hf)) h.1) more_self (fun v => ?_)
    split
    · refine (finds_block net e _ .null (fun f hf => hc f (List.mem_append_right _ (List.mem_append_right _ hf))) h.2.2).weaken ?_
      intro x hx
      rcases hx with hx | hx
      · exact Or.inl (Or.inl hx)
      · rcases List.mem_append.1 hx with hx | hx
        · exact Or.inl (Or.inr hx)
        · exact Or.inr (by simpa using (List.mem_filter.1 hx).2)
    · refine (finds_block net t _ .null (fun f hf => hc f (List.mem_append_right _ (List.mem_append_left _ hf))) h.2.1).weaken ?_
      intro x hx
      rcases hx with hx | hx
      · exact Or.inl (Or.inl hx)
      · rcases List.mem_append.1 hx with hx | hx
        · exact Or.inl (Or.inr hx)
        · exact Or.inr (List.mem_filter.1 hx).1
  | .call f args, D, hc, h => by
    simp only [KnownIn] at h
    simp only [evalExpr, sure]
    exact Finds.bind (finds_list net args D (fun f hf => hc f (List.mem_cons_of_mem _ hf)) h.1) more_self
      (fun vs => Finds.call net (hc f List.mem_cons_self) vs h.2)
termination_by structural e => e
theorem finds_list (net : Net) : ∀ (l : List (Expr F)) (D : Str → Prop), (∀ f ∈ calledList l, amGet f table ≠ none ∨ f ∈ builtins) → KnownList table D l →
    Finds table D (more D (sureList l)) (evalList (callAt net 1) l)
  | [], D, _, _ => by
    simp only [evalList, sureList]; exact (Finds.pure _).weaken (fun x h => h.elim id (fun h => nomatch h))
  | e :: l, D, hc, h => by
    simp only [KnownList] at h
    simp only [evalList, sureList]
    refine Finds.bind (finds_expr net e D (fun f hf => hc f (List.mem_append_left _ hf)) h.1) more_self (fun v =>
      Finds.bind (finds_list net l _ (fun f hf => hc f (List.mem_append_right _ hf)) h.2) more_self (fun w => (Finds.pure _).weaken ?_))
    intro x hx
    rcases hx with hx | hx
    · exact Or.inl (Or.inl hx)
    · exact (List.mem_append.1 hx).elim (fun h => Or.inl (Or.inr h)) Or.inr
termination_by structural l => l
theorem finds_pairs (net : Net) : ∀ (l : List (Expr F × Expr F)) (D : Str → Prop) (acc : List (Str × Value F)),
    (∀ f ∈ calledPairs l, amGet f table ≠ none ∨ f ∈ builtins) → KnownPairs table D l → Finds table D (more D (surePairs l)) (evalPairs (callAt net 1) acc l)
  | [], D, acc, _, _ => by
    simp only [evalPairs, surePairs]; exact (Finds.pure _).weaken (fun x h => h.elim id (fun h => nomatch h))
  | (k, v) :: l, D, acc, hc, h => by
    simp only [KnownPairs] at h
    simp only [evalPairs, surePairs]
    refine Finds.bind (finds_expr net k D (fun f hf => hc f (List.mem_append_left _ hf)) h.1) more_self (fun a =>
      Finds.bind (finds_expr net v _ (fun f hf => hc f (List.mem_append_right _ (List.mem_append_left _ hf))) h.2.1) more_self (fun b =>
      (finds_pairs net l _ _ (fun f hf => hc f (List.mem_append_right _ (List.mem_append_right _ hf))) h.2.2).weaken ?_))
    intro x hx
    rcases hx with hx | hx
    · exact Or.inl (Or.inl (Or.inl hx))
    · rcases List.mem_append.1 hx with hx | hx
      · exact Or.inl (Or.inl (Or.inr hx))
      · exact (List.mem_append.1 hx).elim (fun h => Or.inl (Or.inr h)) Or.inr
termination_by structural l => l
theorem finds_block (net : Net) : ∀ (l : List (Expr F)) (D : Str → Prop) (acc : Value F), (∀ f ∈ calledList l, amGet f table ≠ none ∨ f ∈ builtins) →
    KnownList table D l → Finds table D (more D (sureList l)) (evalBlock (callAt net 1) acc l)
  | [], D, acc, _, _ => by
    simp only [evalBlock, sureList]; exact (Finds.pure _).weaken (fun x h => h.elim id (fun h => nomatch h))
  | e :: l, D, acc, hc, h => by
    simp only [KnownList] at h
    simp only [evalBlock, sureList]
    refine Finds.bind (finds_expr net e D (fun f hf => hc f (List.mem_append_left _ hf)) h.1) more_self (fun v =>
      (finds_block net l _ v (fun f hf => hc f (List.mem_append_right _ hf)) h.2).weaken ?_)
    intro x hx
    rcases hx with hx | hx
    · exact Or.inl (Or.inl hx)
    · exact (List.mem_append.1 hx).elim (fun h => Or.inl (Or.inr h)) Or.inr
termination_by structural l => l
end

/-! ## C128 -/

/-- C128: a script whose variables are set before they are read, or have values at the start, and which calls only requests and functions that exist, never
fails for a missing name, whatever the servers answer. -/
theorem c128_names (net : Net) (block : List (Expr F)) (D : Str → Prop) (s : St F) (hv : HaveValues D s) (hk : KnownList s.ctx.requests D block)
    (hc : CallsKnown s.ctx.requests block) : ∀ e, (runBlock net block s).1 = .err e → ¬ NameError e :=
  (finds_block net block D .null hc hk s rfl hv).2.2.2.2

/-- C128: and every message it sends is a template of its requests with every placeholder replaced by the text of a variable that has a value. -/
theorem c128_sent (net : Net) (block : List (Expr F)) (D : Str → Prop) (s : St F) (hv : HaveValues D s) (hk : KnownList s.ctx.requests D block)
    (hc : CallsKnown s.ctx.requests block) : ∃ l, (runBlock net block s).2.sent = s.sent ++ l ∧ ∀ m ∈ l, FilledIn s.ctx.requests m :=
  (finds_block net block D .null hc hk s rfl hv).2.2.1

/-- C128: if it has a value, the variables it certainly sets have values. -/
theorem c128_sure (net : Net) (block : List (Expr F)) (D : Str → Prop) (s : St F) (hv : HaveValues D s) (hk : KnownList s.ctx.requests D block)
    (hc : CallsKnown s.ctx.requests block) (v : Value F) (h : (runBlock net block s).1 = .ok v) : HaveValues (more D (sureList block)) (runBlock net block s).2 :=
  (finds_block net block D .null hc hk s rfl hv).2.2.2.1 v h

/-! ## Without branches the check is exact -/

/-- Whenever `m` succeeds, where at most `D` had values, `K` holds of `D` and the requests, and at most `D` and `L` have values afterwards. -/
def Reveals (K : (Str → Prop) → List (Str × (Str × List (Expr F))) → Prop) (L : List Str) {α : Type} (m : M F α) : Prop :=
  ∀ s v s', m s = (.ok v, s') → ∀ D : Str → Prop, (∀ x, s.ctx.get x ≠ none → D x) →
    K D s.ctx.requests ∧ (∀ x, s'.ctx.get x ≠ none → more D L x) ∧ s'.ctx.requests = s.ctx.requests

theorem Reveals.bind {α β : Type} {m : M F α} {f : α → M F β} {K K' : (Str → Prop) → List (Str × (Str × List (Expr F))) → Prop} {L L' : List Str}
    (hm : Reveals K L m) (hf : ∀ a, Reveals K' L' (f a)) : Reveals (fun D t => K D t ∧ K' (more D L) t) (L ++ L') (m >>= f) := by
  intro s v s' h D hD
  obtain ⟨a, u, h1, h2⟩ := M.bind_ok_inv h
  obtain ⟨g1, g2, g3⟩ := hm s a u h1 D hD
  obtain ⟨k1, k2, k3⟩ := hf a u v s' h2 (more D L) g2
  refine ⟨⟨g1, g3 ▸ k1⟩, fun x hx => ?_, k3.trans g3⟩
  rcases k2 x hx with (h | h) | h
  · exact .inl h
  · exact .inr (List.mem_append_left _ h)
  · exact .inr (List.mem_append_right _ h)

theorem Reveals.imp {α : Type} {m : M F α} {K K' : (Str → Prop) → List (Str × (Str × List (Expr F))) → Prop} {L L' : List Str} (h : Reveals K L m)
    (hk : ∀ D t, K D t → K' D t) (hl : ∀ x ∈ L, x ∈ L') : Reveals K' L' m := fun s v s' hm D hD =>
  have g := h s v s' hm D hD
  ⟨hk _ _ g.1, fun x hx => (g.2.1 x hx).imp id (hl x), g.2.2⟩

theorem Reveals.lift {α : Type} (r : Res α) : Reveals (F := F) (fun _ _ => True) [] (M.lift r) := by
  intro s v s' h D hD
  cases (Prod.mk.injEq .. ▸ h : _ ∧ _).2
  exact ⟨trivial, fun x hx => .inl (hD x hx), rfl⟩

theorem Reveals.pure {α : Type} (a : α) : Reveals (F := F) (fun _ _ => True) [] (M.pure a) := Reveals.lift (.ok a)

theorem Reveals.write (n : Str) (v : Value F) : Reveals (fun _ _ => True) [n] (writeVar n v) := by
  intro s w s' h D hD
  cases h
  refine ⟨trivial, fun x hx => ?_, rfl⟩
  by_cases e : x = n
  · exact .inr (by simp [e])
  · refine .inl (hD x ?_)
    simpa only [Context.get, Context.set, amGet_insert, beq_iff_eq, Ne.symm e, if_false] using hx

theorem Reveals.call (net : Net) (f : Str) (vs : List (Value F)) : Reveals (fun _ t => amGet f t ≠ none ∨ f ∈ builtins) [] (callAt net 1 f vs) := by
  intro s v s' h D hD
  cases hr : s.ctx.request f with
  | none =>
    rw [callAt_none net vs hr] at h
    by_cases hb : f ∈ builtins
    · have frame : s'.ctx = s.ctx := by
        unfold callNative at h
        split at h
        · obtain ⟨_, _, h1, h2⟩ := M.bind_ok_inv h
          have e1 := congrArg Prod.snd h1
          have e2 := congrArg Prod.snd h2
          dsimp only [M.lift] at e1 e2
          rw [← e2, ← e1]
          rfl
        · split at h
          · obtain ⟨_, _, h1, h2⟩ := M.bind_ok_inv h
            have e1 := congrArg Prod.snd h1
            have e2 := congrArg Prod.snd h2
            dsimp only [M.lift] at e1 e2
            rw [← e2, ← e1]
            rfl
          · split at h
            · exact (congrArg (fun p => p.2.ctx) h).symm
            · split at h
              · exact (congrArg (fun p => p.2.ctx) h).symm
              · split at h <;> exact (congrArg (fun p => p.2.ctx) h).symm
      rw [frame]
      exact ⟨.inr hb, fun x hx => .inl (hD x hx), rfl⟩
    · have hne : ∀ g, g ∈ builtins → f ≠ g := fun g hg e => hb (e ▸ hg)
      unfold callNative at h
      rw [if_neg (hne _ (by decide)), if_neg (hne _ (by decide)), if_neg (hne _ (by decide)), if_neg (hne _ (by decide)), if_neg (hne _ (by decide))] at h
      cases h
  | some p =>
    obtain ⟨message, asserts⟩ := p
    have hn : amGet f s.ctx.requests ≠ none := by rw [show amGet f s.ctx.requests = _ from hr]; simp
    rw [callAt_some net vs hr] at h
    rcases callRequest_cases net 0 f message asserts s with ⟨rq, rs, t, e, map, as, ctx', o, _, _, _, g⟩ | ⟨o, g, _⟩ | ⟨o, g, _⟩
    · rw [g] at h
      cases h
      exact ⟨.inl hn, fun x hx => .inl (hD x hx), rfl⟩
    · rw [g] at h; cases h
    · rw [g] at h; cases h

mutual
theorem reveals_expr (net : Net) : ∀ (e : Expr F), Unbranched e →
    Reveals (fun D t => KnownIn [] D e ∧ ∀ f ∈ called e, amGet f t ≠ none ∨ f ∈ builtins) (sure e) (evalExpr (callAt net 1) e)
  | .int _, _ | .float _, _ | .bool _, _ | .str _, _ => by
    simp only [evalExpr, sure, KnownIn, called]
    exact (Reveals.pure _).imp (fun _ _ _ => ⟨trivial, fun _ h => nomatch h⟩) (fun _ h => h)
  | .ident n, _ => by
    intro s v s' h D hD
    simp only [evalExpr] at h
    simp only [sure, KnownIn, called]
    cases hg : s.ctx.get n with
    | some w =>
      rw [hg] at h
      cases h
      exact ⟨⟨hD n (by rw [hg]; simp), fun _ h => nomatch h⟩, fun x hx => .inl (hD x hx), rfl⟩
    | none => rw [hg] at h; cases h
  | .arr items, h => by
    simp only [Unbranched] at h
    simp only [evalExpr, sure, KnownIn, called]
    exact (Reveals.bind (reveals_list net items h) fun _ => Reveals.pure _).imp (fun _ _ h => h.1) (fun x h => by simpa using h)
  | .map pairs, h => by
    simp only [Unbranched] at h
    simp only [evalExpr, sure, KnownIn, called]
    exact (Reveals.bind (reveals_pairs net pairs h []) fun _ => Reveals.pure _).imp (fun _ _ h => h.1) (fun x h => by simpa using h)
  | .index l i, h => by
    simp only [Unbranched] at h
    simp only [evalExpr, sure, KnownIn, called]
    refine (Reveals.bind (reveals_expr net l h.1) fun _ => Reveals.bind (reveals_expr net i h.2) fun _ => Reveals.lift _).imp (fun D t h => ?_) (fun x h => by simpa using h)
    exact ⟨⟨h.1.1, h.2.1.1⟩, fun f hf => (List.mem_append.1 hf).elim (h.1.2 f) (h.2.1.2 f)⟩
  | .field l n, h => by
    simp only [Unbranched] at h
    simp only [evalExpr, sure, KnownIn, called]
    exact (Reveals.bind (reveals_expr net l h) fun _ => Reveals.lift _).imp (fun _ _ h => h.1) (fun x h => by simpa using h)
  | .letE n v, h => by
    simp only [Unbranched] at h
    simp only [evalExpr, sure, KnownIn, called]
    refine (Reveals.bind (reveals_expr net v h) fun w => Reveals.bind (Reveals.write n w) fun _ => Reveals.pure _).imp (fun _ _ h => h.1) (fun x h => ?_)
    simp at h ⊢
    exact h.symm
  | .unary t r, h => by
    simp only [Unbranched] at h
    simp only [evalExpr, sure, KnownIn, called]
    exact (Reveals.bind (reveals_expr net r h) fun _ => Reveals.lift _).imp (fun _ _ h => h.1) (fun x h => by simpa using h)
  | .binary t l r, h => by
    simp only [Unbranched] at h
    simp only [evalExpr, sure, KnownIn, called]
    rw [if_neg (fun e => e.elim h.1 h.2.1)]
    cases ho : binaryOp (F := F) t.kind with
    | some op =>
      refine (Reveals.bind (reveals_expr net l h.2.2.1) fun _ => Reveals.bind (reveals_expr net r h.2.2.2) fun _ => Reveals.lift _).imp (fun D t h => ?_) (fun x h => by simpa using h)
      exact ⟨⟨h.1.1, h.2.1.1⟩, fun f hf => (List.mem_append.1 hf).elim (h.1.2 f) (h.2.1.2 f)⟩
    | none =>
      dsimp only
      rw [if_neg h.2.1, if_neg h.1]
      intro s v s' he
      cases he
  | .paren v, h => by
    simp only [Unbranched] at h
    simp only [evalExpr, sure, KnownIn, called]
    exact reveals_expr net v h
  | .ifE _ _ _, h => by simp only [Unbranched] at h
  | .call f args, h => by
    simp only [Unbranched] at h
    simp only [evalExpr, sure, KnownIn, called]
    refine (Reveals.bind (reveals_list net args h) fun vs => Reveals.call net f vs).imp (fun D t h => ?_) (fun x h => by simpa using h)
    refine ⟨⟨h.1.1, fun _ _ _ _ h => nomatch h⟩, fun g hg => ?_⟩
    rcases List.mem_cons.1 hg with rfl | hg
    · exact h.2
    · exact h.1.2 g hg
termination_by structural e => e
theorem reveals_list (net : Net) : ∀ (l : List (Expr F)), UnbranchedList l →
    Reveals (fun D t => KnownList [] D l ∧ ∀ f ∈ calledList l, amGet f t ≠ none ∨ f ∈ builtins) (sureList l) (evalList (callAt net 1) l)
  | [], _ => by
    simp only [evalList, sureList, KnownList, calledList]
    exact (Reveals.pure _).imp (fun _ _ _ => ⟨trivial, fun _ h => nomatch h⟩) (fun _ h => h)
  | e :: l, h => by
    simp only [UnbranchedList] at h
    simp only [evalList, sureList, KnownList, calledList]
    refine (Reveals.bind (reveals_expr net e h.1) fun _ => Reveals.bind (reveals_list net l h.2) fun _ => Reveals.pure _).imp (fun D t h => ?_) (fun x h => by simpa using h)
    exact ⟨⟨h.1.1, h.2.1.1⟩, fun f hf => (List.mem_append.1 hf).elim (h.1.2 f) (h.2.1.2 f)⟩
termination_by structural l => l
theorem reveals_pairs (net : Net) : ∀ (l : List (Expr F × Expr F)), UnbranchedPairs l → ∀ acc,
    Reveals (fun D t => KnownPairs [] D l ∧ ∀ f ∈ calledPairs l, amGet f t ≠ none ∨ f ∈ builtins) (surePairs l) (evalPairs (callAt net 1) acc l)
  | [], _, acc => by
    simp only [evalPairs, surePairs, KnownPairs, calledPairs]
    exact (Reveals.pure _).imp (fun _ _ _ => ⟨trivial, fun _ h => nomatch h⟩) (fun _ h => h)
  | (k, v) :: l, h, acc => by
    simp only [UnbranchedPairs] at h
    simp only [evalPairs, surePairs, KnownPairs, calledPairs]
    refine (Reveals.bind (reveals_expr net k h.1) fun a => Reveals.bind (reveals_expr net v h.2.1) fun b => reveals_pairs net l h.2.2 _).imp (fun D t h => ?_) (fun x h => h)
    refine ⟨⟨h.1.1, h.2.1.1, h.2.2.1⟩, fun f hf => (List.mem_append.1 hf).elim (h.1.2 f) fun hf => (List.mem_append.1 hf).elim (h.2.1.2 f) (h.2.2.2 f)⟩
termination_by structural l => l
end

theorem reveals_block (net : Net) (l : List (Expr F)) : UnbranchedList l → ∀ acc,
    Reveals (fun D t => KnownList [] D l ∧ ∀ f ∈ calledList l, amGet f t ≠ none ∨ f ∈ builtins) (sureList l) (evalBlock (callAt net 1) acc l) := by
  induction l with
  | nil =>
    intro _ acc
    simp only [evalBlock, sureList, KnownList, calledList]
    exact (Reveals.pure _).imp (fun _ _ _ => ⟨trivial, fun _ h => nomatch h⟩) (fun _ h => h)
  | cons e l ih =>
    intro h acc
    simp only [UnbranchedList] at h
    simp only [evalBlock, sureList, KnownList, calledList]
    refine (Reveals.bind (reveals_expr net e h.1) fun v => ih h.2 v).imp (fun D t h => ?_) (fun x h => h)
    exact ⟨⟨h.1.1, h.2.1⟩, fun f hf => (List.mem_append.1 hf).elim (h.1.2 f) (h.2.2 f)⟩

/-- C128: without `if`, `&&` and `||` the check misses nothing: a script that does not pass it has no value, whatever the servers answer. -/
theorem c128_exact (net : Net) (block : List (Expr F)) (s : St F) (hb : UnbranchedList block)
    (h : ¬ (KnownList [] (fun x => s.ctx.get x ≠ none) block ∧ CallsKnown s.ctx.requests block)) : ∀ v, (runBlock net block s).1 ≠ .ok v := by
  intro v hv
  have := reveals_block net block hb .null s v (runBlock net block s).2 (by rw [← hv]; rfl) (fun x => s.ctx.get x ≠ none) (fun _ h => h)
  exact h this.1

/-- Concrete case: the example of C77 with its calls; `token` is set before the request that uses it is called. -/
example : CallsKnown [(c!"login", (c!"POST http://h/{user}", [])), (c!"profile", (c!"GET http://h/{ token }", ([] : List (Expr F))))]
    [.letE c!"token" (.field (.call c!"login" []) c!"body"), .call c!"profile" [], .call c!"println" [.str c!"{}", .ident c!"token"]] := by
  intro f hf
  have : f = c!"login" ∨ f = c!"profile" ∨ f = c!"println" := by simpa [calledList, called] using hf
  rcases this with rfl | rfl | rfl
  · exact .inl (by simp [amGet])
  · exact .inl (by simp [amGet])
  · exact .inr (by decide)

/-- C128: the check is needed, and with an `if` it may reject a script that runs. -/
theorem c128_needed (net : Net) :
    (runBlock net [.ident c!"x"] (⟨Context.new, [], []⟩ : St F)).1 = .err c!"ident:x not found" ∧
    (runBlock net [.call c!"f" []] (⟨Context.new, [], []⟩ : St F)).1 = .err c!"function f not found" ∧
    (runBlock net [.ifE (.bool false) [.ident c!"x"] [.int 1]] (⟨Context.new, [], []⟩ : St F)).1 = .ok (.int 1) ∧
    NameError c!"ident:x not found" ∧ NameError c!"function f not found" :=
  ⟨rfl, rfl, rfl, ⟨c!"x", .inl rfl⟩, ⟨c!"f", .inr rfl⟩⟩

end Am
