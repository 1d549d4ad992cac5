import Verif.Model.AnyOrder
import Verif.Props.Shown
/-!
# Hash maps in any order: C126
-/
set_option linter.unusedSimpArgs false
set_option linter.unusedSectionVars false
namespace Am
open Spec
variable {F : Type}

/-! ## Texts -/

section texts
variable [i : Rt F] (hi : Visits i.order)
include hi

mutual
theorem debug_allowed : ∀ v : Value F, DebuggedAs v v.debug
  | .null => .null
  | .int n => .int n
  | .float f => .float f
  | .bool b => .bool b
  | .str s => .str s
  | .arr items => .arr (debugList_allowed items)
  | .map pairs => .map (debugPairs_allowed pairs) (hi _)
theorem debugList_allowed : ∀ l : List (Value F), DebuggedList l (Value.debugList l)
  | [] => .nil
  | v :: l => .cons (debug_allowed v) (debugList_allowed l)
theorem debugPairs_allowed : ∀ l : List (Str × Value F), DebuggedEntries l (Value.debugPairs l)
  | [] => .nil
  | (_, v) :: l => .cons (debug_allowed v) (debugPairs_allowed l)
end

theorem display_allowed (v : Value F) : ShownAs v v.display := by
  cases v with
  | null => exact .null
  | int n => exact .int n
  | float f => exact .float f
  | bool b => exact .bool b
  | str s => exact .str s
  | arr items => exact .arr (debugList_allowed hi items)
  | map pairs => exact .map (debugPairs_allowed hi pairs) (hi _)

theorem displayList_allowed : ∀ l : List (Value F), ShownList l (l.map Value.display)
  | [] => .nil
  | v :: l => .cons (display_allowed hi v) (displayList_allowed l)

theorem debuggedList_only : ∀ {items : List (Value F)} {ts : List Str}, (∀ v ∈ items, ∀ t, DebuggedAs v t → t = v.debug) → DebuggedList items ts → ts = Value.debugList items
  | [], _, _, hl => by cases hl; rfl
  | v :: l, _, h, hl => by
    have ih := @debuggedList_only l
    cases hl with
    | cons h1 h2 =>
      rw [ih (fun w hw => h w (List.mem_cons_of_mem _ hw)) h2, h v List.mem_cons_self _ h1]
      rfl

theorem debuggedEntries_none {es es' : List (Str × Str)} (h : DebuggedEntries ([] : List (Str × Value F)) es) (p : es'.Perm es) :
    es' = Rt.order F (Value.debugPairs ([] : List (Str × Value F))) := by
  cases h
  exact (List.perm_nil.1 p).trans (visits_none hi).symm

theorem debuggedEntries_one {k : Str} {v : Value F} (hv : ∀ t, DebuggedAs v t → t = v.debug) {es es' : List (Str × Str)} (h : DebuggedEntries [(k, v)] es)
    (p : es'.Perm es) : es' = Rt.order F (Value.debugPairs [(k, v)]) := by
  cases h with
  | cons h1 h2 =>
    cases h2
    rw [List.perm_singleton.1 p, hv _ h1]
    exact (visits_one hi _).symm

theorem debugged_only {v : Value F} (h : OneWay v) : ∀ t, DebuggedAs v t → t = v.debug := by
  induction h with
  | arr items _ ih =>
    intro t ht
    cases ht with
    | arr hl => rw [debuggedList_only hi ih hl]; rfl
  | none =>
    intro t ht
    cases ht with
    | map he p => rw [debuggedEntries_none hi he p]; rfl
  | one k v _ ih =>
    intro t ht
    cases ht with
    | map he p => rw [debuggedEntries_one hi ih he p]; rfl
  | _ => intro t ht; cases ht; rfl

theorem shown_only {v : Value F} (h : OneWay v) {t : Str} (ht : ShownAs v t) : t = v.display := by
  cases h with
  | arr items h => cases ht with
    | arr hl => rw [debuggedList_only hi (fun v hv => debugged_only hi (h v hv)) hl]; rfl
  | none => cases ht with
    | map he p => rw [debuggedEntries_none hi he p]; rfl
  | one k v h => cases ht with
    | map he p => rw [debuggedEntries_one hi (debugged_only hi h) he p]; rfl
  | _ => cases ht; rfl

theorem shownList_only : ∀ {l : List (Value F)} {ts : List Str}, (∀ v ∈ l, OneWay v) → ShownList l ts → ts = l.map Value.display
  | [], _, _, hl => by cases hl; rfl
  | v :: l, _, h, hl => by
    have ih := @shownList_only l
    cases hl with
    | cons h1 h2 =>
      rw [ih (fun w hw => h w (List.mem_cons_of_mem _ hw)) h2, shown_only hi (h v List.mem_cons_self) h1]
      rfl

/-! ## Operations -/

theorem anyError_allowed {α : Type} {x : Res α} {P : Str → Prop} (h : ∀ e, x = .err e → P e) : anyError x P x := by
  cases x with
  | err e => exact ⟨e, h e rfl, rfl⟩
  | _ => rfl

theorem anyError_only {α : Type} {x r : Res α} {P : Str → Prop} (h : ∀ e e', x = .err e → P e' → e' = e) (hr : anyError x P r) : r = x := by
  cases x with
  | err e =>
    obtain ⟨e', h1, h2⟩ := hr
    rw [h2, h e e' rfl h1]
  | _ => exact hr

omit hi in
theorem field_error {v : Value F} {n e : Str} (h : fieldValue v n = .err e) : e = c!"field operator not support: " ++ v.debug := by
  cases v <;> cases h <;> rfl

omit hi in
theorem index_error {v k : Value F} {e : Str} (h : indexValue v k = .err e) : e = c!"index operator not support: " ++ v.debug := by
  cases v <;> cases k <;> cases h <;> rfl

omit hi in
theorem checked_error {n : Int} {e : Str} {f : Int64 → Res (Value F)} (hf : ∀ k, f k ≠ .err e) : (checked F n).bind f ≠ .err e := by
  unfold checked
  split
  · exact hf _
  · split
    · intro h; cases h
    · exact hf _

omit hi in
theorem unary_error {t : Token} {v : Value F} {e : Str} (h : unaryValue t v = .err e) : e = c!"unknown operator: " ++ t.literal ++ v.debug := by
  obtain ⟨k, lit⟩ := t
  cases k
  case Not => cases v with
    | bool b => cases b <;> cases h
    | _ => cases h
  case Sub => cases v with
    | int n => exact absurd h (checked_error fun k => by intro h; cases h)
    | float f => cases h
    | _ => cases h; rfl
  all_goals (cases h; rfl)

theorem index_allowed (v k : Value F) : anyIndex v k (indexValue v k) := by
  have key : anyError (indexValue v k) (fun e => ∃ t, DebuggedAs v t ∧ e = c!"index operator not support: " ++ t) (indexValue v k) :=
    anyError_allowed hi fun e he => ⟨_, debug_allowed hi v, index_error he⟩
  cases v with
  | map pairs => exact ⟨_, display_allowed hi k, by cases k <;> rfl⟩
  | _ => exact key

theorem index_only {v k : Value F} {r : Res (Value F)} (h : ∀ x ∈ shownIndex v k, OneWay x) (hr : anyIndex v k r) : r = indexValue v k := by
  have key : (∀ x ∈ named (indexValue v k) [v], OneWay x) → anyError (indexValue v k) (fun e => ∃ t, DebuggedAs v t ∧ e = c!"index operator not support: " ++ t) r → r = indexValue v k := by
    intro h hr
    refine anyError_only hi (fun e e' he he' => ?_) hr
    obtain ⟨t, h1, h2⟩ := he'
    rw [he] at h
    rw [h2, index_error he, debugged_only hi (h v List.mem_cons_self) t h1]
  cases v with
  | map pairs =>
    obtain ⟨t, h1, h2⟩ := hr
    rw [h2, shown_only hi (h k List.mem_cons_self) h1]
    cases k <;> rfl
  | _ => exact key h hr

theorem field_allowed (v : Value F) (n : Str) : anyField v n (fieldValue v n) :=
  anyError_allowed hi fun _ he => ⟨_, debug_allowed hi v, field_error he⟩

theorem field_only {v : Value F} {n : Str} {r : Res (Value F)} (h : ∀ x ∈ named (fieldValue v n) [v], OneWay x) (hr : anyField v n r) : r = fieldValue v n := by
  refine anyError_only hi (fun e e' he he' => ?_) hr
  obtain ⟨t, h1, h2⟩ := he'
  rw [he] at h
  rw [h2, field_error he, debugged_only hi (h v List.mem_cons_self) t h1]

theorem unary_allowed (k : Token) (v : Value F) : anyUnary k v (unaryValue k v) :=
  anyError_allowed hi fun _ he => ⟨_, debug_allowed hi v, unary_error he⟩

theorem unary_only {k : Token} {v : Value F} {r : Res (Value F)} (h : ∀ x ∈ named (unaryValue k v) [v], OneWay x) (hr : anyUnary k v r) : r = unaryValue k v := by
  refine anyError_only hi (fun e e' he he' => ?_) hr
  obtain ⟨t, h1, h2⟩ := he'
  rw [he] at h
  rw [h2, unary_error he, debugged_only hi (h v List.mem_cons_self) t h1]

omit hi in
theorem i64Div_error {l r : Int64} {e : Str} {f : Int64 → Res (Value F)} (hf : ∀ k, f k ≠ .err e) : (i64Div l r).bind f ≠ .err e := by
  unfold i64Div
  split
  · intro h; cases h
  · split
    · intro h; cases h
    · exact hf _

omit hi in
theorem i64Rem_error {l r : Int64} {e : Str} {f : Int64 → Res (Value F)} (hf : ∀ k, f k ≠ .err e) : (i64Rem l r).bind f ≠ .err e := by
  unfold i64Rem
  split
  · intro h; cases h
  · split
    · intro h; cases h
    · exact hf _

omit hi in
theorem shift_error {r : Int64} {e : Str} {f : Nat → Res (Value F)} (hf : ∀ k, f k ≠ .err e) : (shiftAmount F r).bind f ≠ .err e := by
  unfold shiftAmount
  split
  · exact hf _
  · split
    · intro h; cases h
    · exact hf _

omit hi in
theorem binary_error {k : Kind} {op : Value F → Value F → Res (Value F)} (h : binaryOp k = some op) {a b : Value F} {e : Str} (he : op a b = .err e) :
    e = c!"type mismatch: " ++ a.display ++ c!" " ++ mismatchOp k ++ c!" " ++ b.display := by
  cases k <;> first | (cases h; done) | skip
  all_goals (cases h; first | (cases he; done) | skip)
  all_goals (cases a <;> cases b <;> first
    | (cases he <;> rfl)
    | (exact absurd he (checked_error fun k => by intro h; cases h))
    | (exact absurd he (i64Div_error fun k => by intro h; cases h))
    | (exact absurd he (i64Rem_error fun k => by intro h; cases h))
    | (exact absurd he (shift_error fun k => by intro h; cases h)))

theorem binary_allowed {k : Kind} {op : Value F → Value F → Res (Value F)} (h : binaryOp k = some op) (a b : Value F) : anyBinary k op a b (op a b) :=
  anyError_allowed hi fun _ he => ⟨_, _, display_allowed hi a, display_allowed hi b, binary_error h he⟩

theorem binary_only {k : Kind} {op : Value F → Value F → Res (Value F)} (h : binaryOp k = some op) {a b : Value F} {r : Res (Value F)}
    (ho : ∀ x ∈ named (op a b) [a, b], OneWay x) (hr : anyBinary k op a b r) : r = op a b := by
  refine anyError_only hi (fun e e' he he' => ?_) hr
  obtain ⟨t, u, h1, h2, h3⟩ := he'
  rw [he] at ho
  rw [h3, binary_error h he, shown_only hi (ho a List.mem_cons_self) h1, shown_only hi (ho b (List.mem_cons_of_mem _ List.mem_cons_self)) h2]

theorem format_allowed (args : List (Value F)) : anyFormat args (nativeFormat args) := by
  cases args with
  | nil => rfl
  | cons v l => cases v with
    | str f =>
      unfold anyFormat
      dsimp only
      by_cases h : l.reverse.length ≠ (((findTemplates f).map (·.2)).reverse).length
      · rw [if_pos h]
      · rw [if_neg h]
        refine ⟨_, displayList_allowed hi _, ?_⟩
        unfold nativeFormat
        dsimp only
        rw [if_neg h]
    | _ => rfl

theorem format_only {args : List (Value F)} {r : Res (Value F)} (ho : ∀ x ∈ args, OneWay x) (hr : anyFormat args r) : r = nativeFormat args := by
  cases args with
  | nil => exact hr
  | cons v l => cases v with
    | str f =>
      unfold anyFormat at hr
      dsimp only at hr
      by_cases h : l.reverse.length ≠ (((findTemplates f).map (·.2)).reverse).length
      · rw [if_pos h] at hr
        exact hr
      · rw [if_neg h] at hr
        obtain ⟨ts, h1, h2⟩ := hr
        rw [h2, shownList_only hi (fun v hv => ho v (List.mem_cons_of_mem _ (List.mem_reverse.1 hv))) h1]
        unfold nativeFormat
        dsimp only
        rw [if_neg h]
    | _ => exact hr

/-! ## Running -/

/-- Every run of the evaluator is among the possible ones. -/
def Allows {α : Type} (n : AnyM F α) (m : M F α) (s : St F) : Prop := n s (m s)

/-- Nothing else is possible. -/
def OnlyOne {α : Type} (n : AnyM F α) (m : M F α) (s : St F) : Prop := ∀ x, n s x → x = m s

theorem Allows.det {α : Type} (m : M F α) (s : St F) : Allows (.det m) m s := rfl

theorem OnlyOne.det {α : Type} (m : M F α) (s : St F) : OnlyOne (.det m) m s := fun _ h => h

theorem Allows.lift {α : Type} {P : Res α → Prop} {r : Res α} (h : P r) (s : St F) : Allows (.lift P) (M.lift r) s := ⟨h, rfl⟩

theorem OnlyOne.lift {α : Type} {P : Res α → Prop} {r : Res α} (h : ∀ x, P x → x = r) (s : St F) : OnlyOne (.lift P) (M.lift r) s := by
  rintro ⟨x, t⟩ ⟨h1, h2⟩
  rw [h x h1]
  cases h2
  rfl

theorem Allows.text {α : Type} {P : α → Prop} {a : α} (h : P a) (s : St F) : Allows (.text P) (M.pure a) s := ⟨a, h, rfl⟩

theorem OnlyOne.text {α : Type} {P : α → Prop} {a : α} (h : ∀ b, P b → b = a) (s : St F) : OnlyOne (.text P) (M.pure a) s := by
  rintro x ⟨b, h1, h2⟩
  rw [h2, h b h1]
  rfl

theorem Allows.bind {α β : Type} {n : AnyM F α} {m : M F α} {f : α → AnyM F β} {g : α → M F β} {s : St F} (h : Allows n m s) (hf : ∀ a t, Allows (f a) (g a) t) :
    Allows (.bind n f) (M.bind m g) s := by
  refine ⟨m s, h, ?_⟩
  unfold M.bind
  cases m s with
  | mk r t => cases r with
    | ok a => exact hf a t
    | _ => rfl

theorem OnlyOne.bind {α β : Type} {n : AnyM F α} {m : M F α} {f : α → AnyM F β} {g : α → M F β} {s : St F} (h : OnlyOne n m s)
    (hf : ∀ a t, m s = (.ok a, t) → OnlyOne (f a) (g a) t) : OnlyOne (.bind n f) (M.bind m g) s := by
  rintro x ⟨y, h1, h2⟩
  have e := h y h1
  subst e
  unfold M.bind
  cases hm : m s with
  | mk r t =>
    rw [hm] at h2
    cases r with
    | ok a => exact hf a t hm x h2
    | _ => exact h2

theorem Allows.orElse {α : Type} {n : AnyM F α} {m : M F α} {d : α} {s : St F} (h : Allows n m s) : Allows (.orElse n d) (m.orElse d) s := by
  refine ⟨m s, h, ?_⟩
  unfold M.orElse
  cases m s with
  | mk r t => cases r <;> rfl

theorem OnlyOne.orElse {α : Type} {n : AnyM F α} {m : M F α} {d : α} {s : St F} (h : OnlyOne n m s) : OnlyOne (.orElse n d) (m.orElse d) s := by
  rintro x ⟨y, h1, h2⟩
  have e := h y h1
  subst e
  unfold M.orElse
  cases hm : m s with
  | mk r t =>
    rw [hm] at h2
    cases r <;> exact h2

theorem native_allowed (name : Str) (args : List (Value F)) (s : St F) : Allows (anyNative name args) (callNative name args) s := by
  have hf := format_allowed hi args
  unfold anyNative
  by_cases h1 : name = c!"println"
  · subst h1
    rw [if_pos rfl]
    exact Allows.bind hi (Allows.lift hi hf s) fun v t => Allows.bind hi (Allows.det hi _ _) fun _ u => Allows.det hi _ _
  · rw [if_neg h1]
    by_cases h2 : name = c!"print"
    · subst h2
      rw [if_pos rfl]
      exact Allows.bind hi (Allows.lift hi hf s) fun v t => Allows.bind hi (Allows.det hi _ _) fun _ u => Allows.det hi _ _
    · rw [if_neg h2]
      by_cases h3 : name = c!"format"
      · subst h3
        rw [if_pos rfl]
        exact Allows.lift hi hf s
      · rw [if_neg h3]
        exact Allows.det hi _ _

theorem native_only (name : Str) (args : List (Value F)) (s : St F) (h : ∀ x ∈ shownNative name args, OneWay x) : OnlyOne (anyNative name args) (callNative name args) s := by
  unfold anyNative
  by_cases h1 : name = c!"println"
  · subst h1
    rw [if_pos rfl]
    exact OnlyOne.bind hi (OnlyOne.lift hi (fun x => format_only hi h) s) fun v t _ => OnlyOne.bind hi (OnlyOne.det hi _ _) fun _ u _ => OnlyOne.det hi _ _
  · rw [if_neg h1]
    by_cases h2 : name = c!"print"
    · subst h2
      rw [if_pos rfl]
      exact OnlyOne.bind hi (OnlyOne.lift hi (fun x => format_only hi h) s) fun v t _ => OnlyOne.bind hi (OnlyOne.det hi _ _) fun _ u _ => OnlyOne.det hi _ _
    · rw [if_neg h2]
      by_cases h3 : name = c!"format"
      · subst h3
        rw [if_pos rfl]
        exact OnlyOne.lift hi (fun x => format_only hi h) s
      · rw [if_neg h3]
        exact OnlyOne.det hi _ _

theorem anyExpr_strict (call : AnyCall F) {t : Token} {op : Value F → Value F → Res (Value F)} (h : binaryOp t.kind = some op) (l r : Expr F) :
    anyExpr call (.binary t l r) = .bind (anyExpr call l) fun a => .bind (anyExpr call r) fun b => .lift (anyBinary t.kind op a b) := by
  rw [anyExpr, h]

theorem anyExpr_lazy (call : AnyCall F) {t : Token} (h : binaryOp (F := F) t.kind = none) (l r : Expr F) :
    anyExpr call (.binary t l r) =
      if t.kind = .Lo then .bind (anyExpr call l) fun a => if a.falsy then anyExpr call r else .det (M.pure a)
      else if t.kind = .La then .bind (anyExpr call l) fun a => if a.falsy then .det (M.pure a) else anyExpr call r
      else .det (M.lift (.err (c!"not support operator: " ++ l.display ++ c!" " ++ t.literal ++ c!" " ++ r.display))) := by
  rw [anyExpr, h]

section allowed
variable {call : Call F} {acall : AnyCall F} (hc : ∀ n vs s, Allows (acall n vs) (call n vs) s)
include hc

mutual
theorem expr_allowed : ∀ (e : Expr F) (s : St F), Allows (anyExpr acall e) (evalExpr call e) s
  | .int _, _ => rfl
  | .float _, _ => rfl
  | .bool _, _ => rfl
  | .str _, _ => rfl
  | .ident _, _ => rfl
  | .arr items, s => Allows.bind hi (list_allowed items s) fun _ _ => rfl
  | .map pairs, s => Allows.bind hi (pairs_allowed pairs [] s) fun _ _ => rfl
  | .index l j, s => Allows.bind hi (expr_allowed l s) fun v t => Allows.bind hi (expr_allowed j t) fun k u => Allows.lift hi (index_allowed hi v k) u
  | .field l n, s => Allows.bind hi (expr_allowed l s) fun v t => Allows.lift hi (field_allowed hi v n) t
  | .letE n e, s => Allows.bind hi (expr_allowed e s) fun v t => Allows.bind hi (Allows.det hi _ _) fun _ u => rfl
  | .unary k e, s => Allows.bind hi (expr_allowed e s) fun v t => Allows.lift hi (unary_allowed hi k v) t
  | .binary k l r, s => by
    have ihl := expr_allowed l
    have ihr := expr_allowed r
    cases hb : binaryOp (F := F) k.kind with
    | some op =>
      rw [anyExpr_strict hi acall hb, evalExpr_strict call hb]
      exact Allows.bind hi (ihl s) fun a t => Allows.bind hi (ihr t) fun b u => Allows.lift hi (binary_allowed hi hb a b) u
    | none =>
      rw [anyExpr_lazy hi acall hb, evalExpr_lazy call hb]
      by_cases hlo : k.kind = .Lo
      · rw [if_pos hlo, if_pos hlo]
        refine Allows.bind hi (ihl s) fun a t => ?_
        by_cases hf : a.falsy = true
        · rw [if_pos hf, if_pos hf]
          exact ihr t
        · rw [if_neg hf, if_neg hf]
          rfl
      · rw [if_neg hlo, if_neg hlo]
        by_cases hla : k.kind = .La
        · rw [if_pos hla, if_pos hla]
          refine Allows.bind hi (ihl s) fun a t => ?_
          by_cases hf : a.falsy = true
          · rw [if_pos hf, if_pos hf]
            rfl
          · rw [if_neg hf, if_neg hf]
            exact ihr t
        · rw [if_neg hla, if_neg hla]
          rfl
  | .paren e, s => expr_allowed e s
  | .ifE c t e, s => by
    have ihc := expr_allowed c
    have iht := block_allowed t
    have ihe := block_allowed e
    refine Allows.bind hi (ihc s) fun v u => ?_
    by_cases hf : v.falsy = true
    · rw [if_pos hf, if_pos hf]
      exact ihe .null u
    · rw [if_neg hf, if_neg hf]
      exact iht .null u
  | .call f args, s => Allows.bind hi (list_allowed args s) fun v u => hc f v u
theorem list_allowed : ∀ (l : List (Expr F)) (s : St F), Allows (anyList acall l) (evalList call l) s
  | [], _ => rfl
  | e :: l, s => Allows.bind hi (expr_allowed e s) fun _ u => Allows.bind hi (list_allowed l u) fun _ _ => rfl
theorem pairs_allowed : ∀ (l : List (Expr F × Expr F)) (acc : List (Str × Value F)) (s : St F), Allows (anyPairs acall acc l) (evalPairs call acc l) s
  | [], _, _ => rfl
  | (k, v) :: l, acc, s => by
    have ih1 := expr_allowed k
    have ih2 := expr_allowed v
    have ih3 := pairs_allowed l
    refine Allows.bind hi (ih1 s) fun a t => Allows.bind hi (ih2 t) fun b u => ?_
    exact Allows.bind hi (m := M.pure a.display) (g := fun x => evalPairs call (amInsert x b acc) l) (Allows.text hi (display_allowed hi a) u) fun x w => ih3 _ w
theorem block_allowed : ∀ (l : List (Expr F)) (acc : Value F) (s : St F), Allows (anyBlock acall acc l) (evalBlock call acc l) s
  | [], _, _ => rfl
  | e :: l, _, s => Allows.bind hi (expr_allowed e s) fun v u => block_allowed l v u
end

theorem asserts_allowed : ∀ (l : List (Expr F)) (s : St F), Allows (anyAsserts acall l) (evalAsserts call l) s
  | [], _ => rfl
  | .binary k l r :: rest, s => by
    have ih := asserts_allowed rest
    refine Allows.bind hi (Allows.orElse hi (expr_allowed hi hc l s)) fun a t => Allows.bind hi (Allows.orElse hi (expr_allowed hi hc r t)) fun b u =>
      Allows.bind hi (ih u) fun as w => ?_
    cases hcmp : compareValues k.kind a b with
    | none => rfl
    | some q =>
      exact Allows.bind hi (m := M.pure a.display) (g := fun x => M.bind (M.pure b.display) fun y => M.pure (⟨l.display ++ c!" " ++ k.literal ++ c!" " ++ r.display, x, k.literal, y, q⟩ :: as))
        (Allows.text hi (display_allowed hi a) w) fun x w => Allows.bind hi (Allows.text hi (display_allowed hi b) w) fun y _ => Allows.det hi _ _
  | .int _ :: rest, s => asserts_allowed rest s
  | .float _ :: rest, s => asserts_allowed rest s
  | .bool _ :: rest, s => asserts_allowed rest s
  | .str _ :: rest, s => asserts_allowed rest s
  | .ident _ :: rest, s => asserts_allowed rest s
  | .arr _ :: rest, s => asserts_allowed rest s
  | .map _ :: rest, s => asserts_allowed rest s
  | .index _ _ :: rest, s => asserts_allowed rest s
  | .field _ _ :: rest, s => asserts_allowed rest s
  | .letE _ _ :: rest, s => asserts_allowed rest s
  | .unary _ _ :: rest, s => asserts_allowed rest s
  | .paren _ :: rest, s => asserts_allowed rest s
  | .ifE _ _ _ :: rest, s => asserts_allowed rest s
  | .call _ _ :: rest, s => asserts_allowed rest s

end allowed

section only
variable {call : Call F} {acall : AnyCall F} {shows : Str → List (Value F) → St F → List (Value F)}
  (hc : ∀ n vs s, (∀ x ∈ shows n vs s, OneWay x) → OnlyOne (acall n vs) (call n vs) s)
include hc

mutual
theorem expr_only : ∀ (e : Expr F) (s : St F), (∀ x ∈ shownExpr call shows e s, OneWay x) → OnlyOne (anyExpr acall e) (evalExpr call e) s
  | .int _, _, _ => fun _ h => h
  | .float _, _, _ => fun _ h => h
  | .bool _, _, _ => fun _ h => h
  | .str _, _, _ => fun _ h => h
  | .ident _, _, _ => fun _ h => h
  | .arr items, s, h => OnlyOne.bind hi (list_only items s h) fun _ _ _ _ h => h
  | .map pairs, s, h => OnlyOne.bind hi (pairs_only pairs [] s h) fun _ _ _ _ h => h
  | .index l j, s, h => by
    have ihl := expr_only l
    have ihj := expr_only j
    have hx := List.forall_mem_append.1 h
    refine OnlyOne.bind hi (ihl s hx.1) fun v t hm => ?_
    have hy := List.forall_mem_append.1 (after_ok hi hi hx.2 hm)
    refine OnlyOne.bind hi (ihj t hy.1) fun k u hk => ?_
    exact OnlyOne.lift hi (fun x => index_only hi (after_ok hi hi hy.2 hk)) u
  | .field l n, s, h => by
    have ihl := expr_only l
    have hx := List.forall_mem_append.1 h
    refine OnlyOne.bind hi (ihl s hx.1) fun v t hm => ?_
    exact OnlyOne.lift hi (fun x => field_only hi (after_ok hi hi hx.2 hm)) t
  | .letE n e, s, h => OnlyOne.bind hi (expr_only e s h) fun _ _ _ => OnlyOne.bind hi (OnlyOne.det hi _ _) fun _ _ _ _ h => h
  | .unary k e, s, h => by
    have ihl := expr_only e
    have hx := List.forall_mem_append.1 h
    refine OnlyOne.bind hi (ihl s hx.1) fun v t hm => ?_
    exact OnlyOne.lift hi (fun x => unary_only hi (after_ok hi hi hx.2 hm)) t
  | .binary k l r, s, h => by
    have ihl := expr_only l
    have ihr := expr_only r
    have hx := List.forall_mem_append.1 h
    have h1 := ihl s hx.1
    cases hb : binaryOp (F := F) k.kind with
    | some op =>
      rw [anyExpr_strict hi acall hb, evalExpr_strict call hb]
      refine OnlyOne.bind hi h1 fun a t hm => ?_
      have hy := after_ok hi hi hx.2 hm
      rw [hb] at hy
      dsimp only at hy
      have hz := List.forall_mem_append.1 hy
      refine OnlyOne.bind hi (ihr t hz.1) fun b u hbv => ?_
      exact OnlyOne.lift hi (fun x => binary_only hi hb (after_ok hi hi hz.2 hbv)) u
    | none =>
      rw [anyExpr_lazy hi acall hb, evalExpr_lazy call hb]
      by_cases hlo : k.kind = .Lo
      · rw [if_pos hlo, if_pos hlo]
        refine OnlyOne.bind hi h1 fun a t hm => ?_
        have hy := after_ok hi hi hx.2 hm
        rw [hb] at hy
        dsimp only at hy
        by_cases hf : a.falsy = true
        · rw [if_pos hf, if_pos hf]
          rw [if_pos (Or.inl ⟨hlo, hf⟩)] at hy
          exact ihr t hy
        · rw [if_neg hf, if_neg hf]
          exact OnlyOne.det hi _ _
      · rw [if_neg hlo, if_neg hlo]
        by_cases hla : k.kind = .La
        · rw [if_pos hla, if_pos hla]
          refine OnlyOne.bind hi h1 fun a t hm => ?_
          have hy := after_ok hi hi hx.2 hm
          rw [hb] at hy
          dsimp only at hy
          by_cases hf : a.falsy = true
          · rw [if_pos hf, if_pos hf]
            exact OnlyOne.det hi _ _
          · rw [if_neg hf, if_neg hf]
            rw [if_pos (Or.inr ⟨hla, by simpa using hf⟩)] at hy
            exact ihr t hy
        · rw [if_neg hla, if_neg hla]
          exact OnlyOne.det hi _ _
  | .paren e, s, h => expr_only e s h
  | .ifE c t e, s, h => by
    have ihc := expr_only c
    have iht := block_only t
    have ihe := block_only e
    have hx := List.forall_mem_append.1 h
    refine OnlyOne.bind hi (ihc s hx.1) fun v u hm => ?_
    have hy := after_ok hi hi hx.2 hm
    by_cases hf : v.falsy = true
    · rw [if_pos hf, if_pos hf]
      rw [if_pos hf] at hy
      exact ihe .null u hy
    · rw [if_neg hf, if_neg hf]
      rw [if_neg hf] at hy
      exact iht .null u hy
  | .call f args, s, h => by
    have iha := list_only args
    have hx := List.forall_mem_append.1 h
    exact OnlyOne.bind hi (iha s hx.1) fun v u hm => hc f v u (after_ok hi hi hx.2 hm)
theorem list_only : ∀ (l : List (Expr F)) (s : St F), (∀ x ∈ shownList call shows l s, OneWay x) → OnlyOne (anyList acall l) (evalList call l) s
  | [], _, _ => fun _ h => h
  | e :: l, s, h => by
    have ih1 := expr_only e
    have ih2 := list_only l
    have hx := List.forall_mem_append.1 h
    refine OnlyOne.bind hi (ih1 s hx.1) fun v u hm => ?_
    have hy := after_ok hi hi hx.2 hm
    exact OnlyOne.bind hi (ih2 u hy) fun _ _ _ => OnlyOne.det hi _ _
theorem pairs_only : ∀ (l : List (Expr F × Expr F)) (acc : List (Str × Value F)) (s : St F), (∀ x ∈ shownPairs call shows l s, OneWay x) →
    OnlyOne (anyPairs acall acc l) (evalPairs call acc l) s
  | [], _, _, _ => fun _ h => h
  | (k, v) :: l, acc, s, h => by
    have ih1 := expr_only k
    have ih2 := expr_only v
    have ih3 := pairs_only l
    have hx := List.forall_mem_append.1 h
    refine OnlyOne.bind hi (ih1 s hx.1) fun a u hm => ?_
    have hy := List.forall_mem_cons.1 (after_ok hi hi hx.2 hm)
    have hz := List.forall_mem_append.1 hy.2
    refine OnlyOne.bind hi (ih2 u hz.1) fun b w hm2 => ?_
    have hw := after_ok hi hi hz.2 hm2
    refine OnlyOne.bind hi (m := M.pure a.display) (g := fun x => evalPairs call (amInsert x b acc) l) (OnlyOne.text hi (fun t => shown_only hi hy.1) w) fun x y e => ?_
    cases e
    exact ih3 _ w hw
theorem block_only : ∀ (l : List (Expr F)) (acc : Value F) (s : St F), (∀ x ∈ shownBlock call shows l s, OneWay x) →
    OnlyOne (anyBlock acall acc l) (evalBlock call acc l) s
  | [], _, _, _ => fun _ h => h
  | e :: l, acc, s, h => by
    have ih1 := expr_only e
    have ih2 := block_only l
    have hx := List.forall_mem_append.1 h
    refine OnlyOne.bind hi (ih1 s hx.1) fun v u hm => ?_
    have hy := after_ok hi hi hx.2 hm
    exact ih2 v u hy
end

theorem asserts_only : ∀ (l : List (Expr F)) (s : St F), (∀ x ∈ shownAsserts call shows l s, OneWay x) → OnlyOne (anyAsserts acall l) (evalAsserts call l) s
  | [], _, _ => fun _ h => h
  | .binary k l r :: rest, s, h => by
    have ih := asserts_only rest
    have hx := List.forall_mem_append.1 h
    refine OnlyOne.bind hi (OnlyOne.orElse hi (expr_only hi hc l s hx.1)) fun a t hm => ?_
    have hy := List.forall_mem_append.1 (after_ok hi hi hx.2 hm)
    refine OnlyOne.bind hi (OnlyOne.orElse hi (expr_only hi hc r t hy.1)) fun b u hb => ?_
    have hz := List.forall_mem_append.1 (after_ok hi hi hy.2 hb)
    refine OnlyOne.bind hi (ih u hz.2) fun as w _ => ?_
    have hw := hz.1
    cases hcmp : compareValues k.kind a b with
    | none => exact OnlyOne.det hi _ _
    | some q =>
      rw [hcmp] at hw
      exact OnlyOne.bind hi (m := M.pure a.display) (g := fun x => M.bind (M.pure b.display) fun y => M.pure (⟨l.display ++ c!" " ++ k.literal ++ c!" " ++ r.display, x, k.literal, y, q⟩ :: as))
        (OnlyOne.text hi (fun t => shown_only hi (hw a List.mem_cons_self)) w) fun x w _ =>
          OnlyOne.bind hi (OnlyOne.text hi (fun t => shown_only hi (hw b (List.mem_cons_of_mem _ List.mem_cons_self))) w) fun y _ _ => OnlyOne.det hi _ _
  | .int _ :: rest, s, h => asserts_only rest s h
  | .float _ :: rest, s, h => asserts_only rest s h
  | .bool _ :: rest, s, h => asserts_only rest s h
  | .str _ :: rest, s, h => asserts_only rest s h
  | .ident _ :: rest, s, h => asserts_only rest s h
  | .arr _ :: rest, s, h => asserts_only rest s h
  | .map _ :: rest, s, h => asserts_only rest s h
  | .index _ _ :: rest, s, h => asserts_only rest s h
  | .field _ _ :: rest, s, h => asserts_only rest s h
  | .letE _ _ :: rest, s, h => asserts_only rest s h
  | .unary _ _ :: rest, s, h => asserts_only rest s h
  | .paren _ :: rest, s, h => asserts_only rest s h
  | .ifE _ _ _ :: rest, s, h => asserts_only rest s h
  | .call _ _ :: rest, s, h => asserts_only rest s h

end only

/-! ## Requests -/

mutual
theorem literal_allowed : ∀ e : Expr F, LiteralAs e e.eval
  | .arr items => .arr (literalList_allowed items)
  | .map pairs => .map (literalPairs_allowed pairs [])
  | .int _ => .other (fun _ h => by cases h) (fun _ h => by cases h)
  | .float _ => .other (fun _ h => by cases h) (fun _ h => by cases h)
  | .bool _ => .other (fun _ h => by cases h) (fun _ h => by cases h)
  | .str _ => .other (fun _ h => by cases h) (fun _ h => by cases h)
  | .ident _ => .other (fun _ h => by cases h) (fun _ h => by cases h)
  | .index _ _ => .other (fun _ h => by cases h) (fun _ h => by cases h)
  | .field _ _ => .other (fun _ h => by cases h) (fun _ h => by cases h)
  | .letE _ _ => .other (fun _ h => by cases h) (fun _ h => by cases h)
  | .unary _ _ => .other (fun _ h => by cases h) (fun _ h => by cases h)
  | .binary _ _ _ => .other (fun _ h => by cases h) (fun _ h => by cases h)
  | .paren _ => .other (fun _ h => by cases h) (fun _ h => by cases h)
  | .ifE _ _ _ => .other (fun _ h => by cases h) (fun _ h => by cases h)
  | .call _ _ => .other (fun _ h => by cases h) (fun _ h => by cases h)
theorem literalList_allowed : ∀ l : List (Expr F), LiteralList l (Expr.evalItems l)
  | [] => .nil
  | e :: l => .cons (literal_allowed e) (literalList_allowed l)
theorem literalPairs_allowed : ∀ (l : List (Expr F × Expr F)) (acc : List (Str × Value F)), LiteralEntries acc l (Expr.evalPairs acc l)
  | [], acc => .nil acc
  | (k, v) :: l, acc => .cons (literal_allowed k) (display_allowed hi _) (literal_allowed v) (literalPairs_allowed l _)
end

mutual
theorem literal_only : ∀ {e : Expr F} {v : Value F}, LiteralAs e v → (∀ x ∈ shownKeys e, OneWay x) → v = e.eval
  | _, _, .arr h, hk => congrArg Value.arr (literalList_only h hk)
  | _, _, .map h, hk => congrArg Value.map (literalPairs_only h hk)
  | _, _, .other _ _, _ => rfl
theorem literalList_only : ∀ {l : List (Expr F)} {vs : List (Value F)}, LiteralList l vs → (∀ x ∈ shownKeysList l, OneWay x) → vs = Expr.evalItems l
  | _, _, .nil, _ => rfl
  | _, _, .cons h1 h2, hk => by
    have hx := List.forall_mem_append.1 hk
    have e1 := literal_only h1 hx.1
    have e2 := literalList_only h2 hx.2
    rw [e1, e2]
    rfl
theorem literalPairs_only : ∀ {acc m : List (Str × Value F)} {l : List (Expr F × Expr F)}, LiteralEntries acc l m → (∀ x ∈ shownKeysPairs l, OneWay x) →
    m = Expr.evalPairs acc l
  | _, _, _, .nil _, _ => rfl
  | _, _, _, .cons h1 h2 h3 h4, hk => by
    have hx := List.forall_mem_cons.1 hk
    have hy := List.forall_mem_append.1 hx.2
    have hz := List.forall_mem_append.1 hy.1
    have e1 := literal_only h1 hz.1
    have e3 := literal_only h3 hz.2
    have e4 := literalPairs_only h4 hy.2
    subst e1
    have e2 := shown_only hi hx.1 h2
    rw [e4, e2, e3]
    rfl
end

theorem toMap_allowed (r : Response) : r.anyMap (r.toMap (F := F)) := by
  unfold Response.anyMap
  split
  · rename_i e _ _ _ hp
    refine ⟨_, literal_allowed hi e, ?_⟩
    unfold Response.toMap
    rw [hp]
  · rfl

theorem toMap_only {r : Response} {x : Res (List (Str × Value F))} (h : ∀ x ∈ shownBody (F := F) r.body, OneWay x) (hx : r.anyMap x) : x = r.toMap := by
  unfold Response.anyMap at hx
  split at hx
  · rename_i e _ _ _ hp
    obtain ⟨v, h1, h2⟩ := hx
    unfold shownBody at h
    rw [hp] at h
    rw [h2, literal_only hi h1 h]
    unfold Response.toMap
    rw [hp]
  · exact hx

theorem zip_render (ctx : Context F) : ∀ l : List (Str × Nat × Nat),
    (l.map (·.2)).zip ((l.map fun m => (ctx.get m.1).getD .null).map Value.display) = l.map fun m => (m.2, varText ctx m.1)
  | [] => rfl
  | m :: l => by
    have ih := zip_render ctx l
    have e : ((ctx.get m.1).getD .null).display = varText ctx m.1 := by
      unfold varText
      cases ctx.get m.1 <;> rfl
    change (m.2, ((ctx.get m.1).getD .null).display) :: (l.map (·.2)).zip ((l.map fun m => (ctx.get m.1).getD .null).map Value.display) = _
    rw [ih, e]
    rfl

theorem render_allowed (ctx : Context F) (message : Str) : anyRender ctx message (render ctx message) :=
  ⟨_, displayList_allowed hi _, by rw [zip_render hi]; rfl⟩

theorem render_only {ctx : Context F} {message text : Str} (h : ∀ x ∈ (findTemplates message).filterMap (fun m => ctx.get m.1), OneWay x)
    (ht : anyRender ctx message text) : text = render ctx message := by
  obtain ⟨ts, h1, h2⟩ := ht
  have ho : ∀ v ∈ (findTemplates message).reverse.map fun m => (ctx.get m.1).getD .null, OneWay v := by
    intro v hv
    obtain ⟨m, hm, e⟩ := List.mem_map.1 hv
    cases hg : ctx.get m.1 with
    | none =>
      rw [hg] at e
      cases e
      exact .null
    | some w =>
      rw [hg] at e
      cases e
      exact h _ (List.mem_filterMap.2 ⟨m, List.mem_reverse.1 hm, hg⟩)
  rw [h2, shownList_only hi ho h1, zip_render hi]
  rfl

theorem Allows.anyLocal {α : Type} {n : AnyM F α} {m : M F α} {map : List (Str × Value F)} {s : St F} (h : Allows n m { s with ctx := Context.ofMap map }) :
    Allows (Am.anyLocal map n) (inLocal map m) s := ⟨_, h, rfl⟩

theorem OnlyOne.anyLocal {α : Type} {n : AnyM F α} {m : M F α} {map : List (Str × Value F)} {s : St F} (h : OnlyOne n m { s with ctx := Context.ofMap map }) :
    OnlyOne (Am.anyLocal map n) (inLocal map m) s := by
  rintro x ⟨y, h1, h2⟩
  rw [h2, h y h1]
  rfl

/-- `callRequest` with its text as a step of its own. -/
theorem callRequest_steps (net : Net) (call : Call F) (name message : Str) (asserts : List (Expr F)) :
    callRequest net call name message asserts =
      M.bind M.get fun s => M.bind (M.pure (render s.ctx message)) fun text =>
      M.bind (M.modify fun s => { s with sent := s.sent ++ [text] }) fun _ =>
      M.bind (M.lift (send net s.sent text)) fun p =>
      M.bind (M.lift (p.2.1.toMap (F := F))) fun map =>
      M.bind (inLocal map (evalAsserts call asserts)) fun q =>
      M.bind (M.modify fun s => { s with ctx := s.ctx.push ⟨name, p.2.2.1, p.1, p.2.1, q.1, p.2.2.2⟩ }) fun _ => M.pure (.map q.2) := rfl

theorem request_allowed (net : Net) {call : Call F} {acall : AnyCall F} (hc : ∀ n vs s, Allows (acall n vs) (call n vs) s) (name message : Str)
    (asserts : List (Expr F)) (s : St F) : Allows (anyRequest net acall name message asserts) (callRequest net call name message asserts) s := by
  rw [callRequest_steps hi]
  refine Allows.bind hi (Allows.det hi _ _) fun s1 t1 => Allows.bind hi (Allows.text hi (render_allowed hi _ _) _) fun text t2 =>
    Allows.bind hi (Allows.det hi _ _) fun _ t3 => Allows.bind hi (Allows.det hi _ _) fun p t4 => Allows.bind hi (Allows.lift hi (toMap_allowed hi _) _) fun map t5 =>
    Allows.bind hi (Allows.anyLocal hi (asserts_allowed hi hc asserts _)) fun q t6 => Allows.bind hi (Allows.det hi _ _) fun _ t7 => Allows.det hi _ _

theorem request_only (net : Net) {call : Call F} {acall : AnyCall F} {shows : Str → List (Value F) → St F → List (Value F)}
    (hc : ∀ n vs s, (∀ x ∈ shows n vs s, OneWay x) → OnlyOne (acall n vs) (call n vs) s) (name message : Str) (asserts : List (Expr F)) (s : St F)
    (h : ∀ x ∈ shownRequest net call shows message asserts s, OneWay x) :
    OnlyOne (anyRequest net acall name message asserts) (callRequest net call name message asserts) s := by
  rw [callRequest_steps hi]
  unfold shownRequest at h
  have hx := List.forall_mem_append.1 h
  refine OnlyOne.bind hi (OnlyOne.det hi _ _) fun s1 t1 e => ?_
  cases e
  refine OnlyOne.bind hi (OnlyOne.text hi (fun t => render_only hi hx.1) _) fun text t2 e => ?_
  cases e
  refine OnlyOne.bind hi (OnlyOne.det hi _ _) fun _ t3 e => ?_
  cases e
  refine OnlyOne.bind hi (OnlyOne.det hi _ _) fun p t4 e => ?_
  obtain ⟨request, response, time, error⟩ := p
  have e1 : send net s.sent (render s.ctx message) = .ok (request, response, time, error) := congrArg Prod.fst e
  have e2 : t4 = { s with sent := s.sent ++ [render s.ctx message] } := (congrArg Prod.snd e).symm
  subst e2
  have hx2 := hx.2
  rw [e1] at hx2
  have hy := List.forall_mem_append.1 hx2
  refine OnlyOne.bind hi (OnlyOne.lift hi (fun x => toMap_only hi hy.1) _) fun map t5 e => ?_
  have e3 : response.toMap (F := F) = .ok map := congrArg Prod.fst e
  have e4 : t5 = { s with sent := s.sent ++ [render s.ctx message] } := (congrArg Prod.snd e).symm
  subst e4
  have hy2 := hy.2
  rw [e3] at hy2
  exact OnlyOne.bind hi (OnlyOne.anyLocal hi (asserts_only hi hc asserts _ hy2)) fun q t6 _ => OnlyOne.bind hi (OnlyOne.det hi _ _) fun _ t7 _ => OnlyOne.det hi _ _

theorem call_allowed (net : Net) : ∀ (n : Nat) (name : Str) (args : List (Value F)) (s : St F), Allows (anyCallAt net n name args) (callAt net n name args) s
  | 0, name, args, s => by
    unfold Allows anyCallAt callAt
    cases s.ctx.request name with
    | some p => rfl
    | none => exact native_allowed hi name args s
  | n + 1, name, args, s => by
    unfold Allows anyCallAt callAt
    cases s.ctx.request name with
    | some p => exact request_allowed hi net (call_allowed net n) name p.1 p.2 s
    | none => exact native_allowed hi name args s

theorem call_only (net : Net) : ∀ (n : Nat) (name : Str) (args : List (Value F)) (s : St F), (∀ x ∈ shownCall net n name args s, OneWay x) →
    OnlyOne (anyCallAt net n name args) (callAt net n name args) s
  | 0, name, args, s, h => by
    unfold OnlyOne anyCallAt callAt
    cases s.ctx.request name with
    | some p => exact fun _ h => h
    | none => exact native_only hi name args s h
  | n + 1, name, args, s, h => by
    unfold OnlyOne anyCallAt callAt
    unfold shownCall at h
    cases hr : s.ctx.request name with
    | some p =>
      rw [hr] at h
      exact request_only hi net (call_only net n) name p.1 p.2 s h
    | none =>
      rw [hr] at h
      exact native_only hi name args s h

end texts

/-! ## C126 -/

section
variable [i : Rt F] (hi : Visits i.order)
include hi

/-- C126: whatever order of hash maps the model is given, its run is one of the possible runs. -/
theorem c126_allowed (net : Net) (es : List (Expr F)) (s : St F) : anyRun net es s (runBlock net es s) :=
  block_allowed hi (call_allowed hi net 1) es .null s

/-- C126: if no value that the model's run turns into text has a map with two or more entries, there is no other run, even when every map may be listed
in another order each time: the same result, the same variables and records, the same messages sent and the same text printed. -/
theorem c126_block (net : Net) (es : List (Expr F)) (s : St F) (h : ∀ v ∈ shownRun net es s, OneWay v) (x : Res (Value F) × St F) :
    anyRun net es s x ↔ x = runBlock net es s :=
  ⟨block_only hi (call_only hi net 1) es .null s h x, fun e => e ▸ c126_allowed hi net es s⟩

theorem text_allowed (net : Net) (text : Str) (s : St F) : Allows (anyText net text) (evalText net text) s := by
  unfold anyText evalText
  cases hp : (parse text : Res (Source F)) with
  | ok src =>
    refine Allows.bind hi (Allows.det hi _ _) fun _ t => ⟨_, c126_allowed hi net src.exprs t, ?_⟩
    dsimp only
    cases hr : runBlock net src.exprs t with
    | mk r u => cases r with
      | ok v => exact ⟨_, display_allowed hi v, rfl⟩
      | _ => rfl
  | _ => rfl

theorem text_only (net : Net) (text : Str) (s : St F) (h : ∀ v ∈ shownText net text s, OneWay v) : OnlyOne (anyText net text) (evalText net text) s := by
  unfold shownText at h
  unfold anyText evalText
  cases hp : (parse text : Res (Source F)) with
  | ok src =>
    rw [hp] at h
    dsimp only at h ⊢
    have hx := List.forall_mem_append.1 h
    refine OnlyOne.bind hi (OnlyOne.det hi _ _) fun _ t e => ?_
    cases e
    rintro x ⟨y, h1, h2⟩
    have e := (c126_block hi net src.exprs _ hx.1 y).1 h1
    subst e
    dsimp only at h2 ⊢
    cases hr : runBlock net src.exprs { s with ctx := s.ctx.extend src.requests } with
    | mk r u =>
      rw [hr] at h2
      cases r with
      | ok v =>
        have hv := after_ok hi hi hx.2 hr
        obtain ⟨w, h3, h4⟩ := h2
        dsimp only
        rw [h4, shown_only hi (hv v List.mem_cons_self) h3]
      | _ => exact h2
  | _ => exact fun _ h => h

/-- C126: the same for `am eval` and for the lines of a session. -/
theorem c126_text (net : Net) (text : Str) (s : St F) (h : ∀ v ∈ shownText net text s, OneWay v) (x : Res Unit × St F) :
    anyText net text s x ↔ x = evalText net text s :=
  ⟨text_only hi net text s h x, fun e => e ▸ text_allowed hi net text s⟩

theorem loop_allowed (net : Net) : ∀ (input : List Input) (s : St F), Allows (anyLoop net input) (replLoop net input) s
  | [], _ => rfl
  | .bad :: rest, s => loop_allowed net rest s
  | .line text :: rest, s => by
    have ih := loop_allowed net rest
    unfold anyLoop replLoop
    by_cases h1 : text = c!"exit"
    · rw [if_pos h1, if_pos h1]
      rfl
    · rw [if_neg h1, if_neg h1]
      by_cases h2 : (trim text).isEmpty = true
      · rw [if_pos h2, if_pos h2]
        exact ih s
      · rw [if_neg h2, if_neg h2]
        exact Allows.bind hi (text_allowed hi net text s) fun _ t => ih t

theorem loop_only (net : Net) : ∀ (input : List Input) (s : St F), (∀ v ∈ shownSession net input s, OneWay v) → OnlyOne (anyLoop net input) (replLoop net input) s
  | [], _, _ => fun _ h => h
  | .bad :: rest, s, h => loop_only net rest s h
  | .line text :: rest, s, h => by
    have ih := loop_only net rest
    unfold shownSession at h
    unfold anyLoop replLoop
    by_cases h1 : text = c!"exit"
    · rw [if_pos h1, if_pos h1]
      exact fun _ h => h
    · rw [if_neg h1] at h ⊢
      rw [if_neg h1]
      by_cases h2 : (trim text).isEmpty = true
      · rw [if_pos h2] at h ⊢
        rw [if_pos h2]
        exact ih s h
      · rw [if_neg h2] at h ⊢
        rw [if_neg h2]
        have hx := List.forall_mem_append.1 h
        refine OnlyOne.bind hi (text_only hi net text s hx.1) fun _ t ht => ?_
        have hy := after_ok hi hi hx.2 ht
        exact ih t hy

/-- C126: the same for a whole session. -/
theorem c126_session (net : Net) (input : List Input) (s : St F) (h : ∀ v ∈ shownSession net input s, OneWay v) (x : Res Unit × St F) :
    anyLoop net input s x ↔ x = replLoop net input s :=
  ⟨loop_only hi net input s h x, fun e => e ▸ loop_allowed hi net input s⟩

end

/-! ## Cases -/

/-- Prints a map with two entries. -/
def printsMap : Expr F := .call c!"println" [.str c!"{m}", .map [(.str c!"a", .int 1), (.str c!"b", .int 2)]]

/-- The line for the entries in the order given. -/
def mapLine (es : List (Str × Str)) : Str := (c!"{" ++ entriesText es ++ c!"}") ++ c!"\n"

theorem printsMap_any [Rt F] (net : Net) {s : St F} (hs : s.ctx.request c!"println" = none) {es : List (Str × Str)}
    (h : es.Perm [(c!"\"a\"", c!"Integer(1)"), (c!"\"b\"", c!"Integer(2)")]) :
    anyExpr (anyCallAt net 1) printsMap s (.ok .null, { s with out := s.out ++ mapLine es }) := by
  have hf : anyFormat [.str c!"{m}", .map [(c!"a", .int 1), (c!"b", .int 2)]] (.ok (.str (c!"{" ++ entriesText es ++ c!"}") : Value F)) := by
    refine ⟨[c!"{" ++ entriesText es ++ c!"}"], .cons (.map (.cons (.int 1) (.cons (.int 2) .nil)) h) .nil, ?_⟩
    change _ = Res.ok (Value.str (c!"" ++ (c!"{" ++ entriesText es ++ c!"}") ++ c!""))
    rw [List.append_nil]
    rfl
  have hargs : anyList (anyCallAt net 1) [.str c!"{m}", .map [(.str c!"a", .int 1), (.str c!"b", .int 2)]] s
      (.ok [.str c!"{m}", .map [(c!"a", .int 1), (c!"b", .int 2)]], s) :=
    ⟨_, rfl, _, ⟨_, ⟨_, ⟨_, rfl, _, rfl, _, ⟨_, .str _, rfl⟩, _, rfl, _, rfl, _, ⟨_, .str _, rfl⟩, rfl⟩, rfl⟩, _, rfl, rfl⟩, rfl⟩
  refine ⟨_, hargs, ?_⟩
  change anyCallAt net 1 c!"println" _ s _
  unfold anyCallAt mapLine
  rw [hs, ← List.append_assoc s.out]
  exact ⟨(_, s), ⟨hf, rfl⟩, _, rfl, rfl⟩

/-- The hypothesis of `c126_block` is needed: a script that prints the same map twice may print two different lines, which it does in no run of the model,
whatever the order. -/
theorem c126_twice [i : Rt F] (net : Net) :
    ∃ x : Res (Value F) × St F, anyRun net [printsMap, printsMap] ⟨Context.new, [], []⟩ x ∧
      x.2.out = c!"{\"a\": Integer(1), \"b\": Integer(2)}\n{\"b\": Integer(2), \"a\": Integer(1)}\n" ∧
      ∀ o, x ≠ @runBlock F (reordered i o) net [printsMap, printsMap] ⟨Context.new, [], []⟩ := by
  refine ⟨(.ok .null, ⟨Context.new, [], c!"{\"a\": Integer(1), \"b\": Integer(2)}\n{\"b\": Integer(2), \"a\": Integer(1)}\n"⟩),
    ⟨_, printsMap_any net rfl (.refl _), _, printsMap_any net rfl (.swap _ _ []), rfl⟩, rfl, fun o h => ?_⟩
  have key : ∃ t, (@runBlock F (reordered i o) net [printsMap, printsMap] ⟨Context.new, [], []⟩).2.out = t ++ t := by
    have e : ∃ d, (@runBlock F (reordered i o) net [printsMap, printsMap] ⟨Context.new, [], []⟩).2.out = (([] ++ d ++ c!"\n") ++ d) ++ c!"\n" :=
      ⟨[] ++ (c!"{" ++ entriesText (o [(c!"\"a\"", c!"Integer(1)"), (c!"\"b\"", c!"Integer(2)")]) ++ c!"}") ++ [], rfl⟩
    obtain ⟨d, e⟩ := e
    exact ⟨d ++ c!"\n", by rw [e, List.append_assoc, List.nil_append]⟩
  obtain ⟨t, ht⟩ := key
  rw [← h] at ht
  have hl : t.length = 35 := by
    have e := congrArg List.length ht
    rw [List.length_append] at e
    change 70 = _ at e
    omega
  have e := List.append_inj (s₁ := c!"{\"a\": Integer(1), \"b\": Integer(2)}\n") (t₁ := c!"{\"b\": Integer(2), \"a\": Integer(1)}\n") (s₂ := t) (t₂ := t) ht (by rw [hl]; rfl)
  have e2 := e.1.trans e.2.symm
  exact absurd e2 (by decide)

set_option maxRecDepth 20000 in
/-- Concrete case for `c126_text`: maps with several entries are made, compared and looked into, but only their parts are turned into text. -/
example : letI := rt64 ⟨true, fun c => [c], id⟩
    Visits (Rt.order F64) ∧ ∀ x ∈ shownText (F := F64) (answering c!"{\"a\": 1, \"b\": [2, 3]}")
      c!"request r `GET http://a/{t}\n` [ json.a == 1, status == 200 ]\nlet m = {\"x\": 1, \"y\": 2}; let t = m.x; println(\"{v}\", r().json.b); m == m"
      ⟨Context.new, [], []⟩, OneWay x :=
  ⟨fun l => List.Perm.refl l, (@isOneWayList_iff F64 _).1 (by decide +kernel)⟩

end Am
