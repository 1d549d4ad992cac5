import Verif.Spec.Shown
import Verif.Props.Chain
/-!
# The order of hash maps: C114
-/
set_option linter.unusedSimpArgs false
set_option linter.unusedSectionVars false
namespace Am
open Spec
variable {F : Type}

section same
set_option smartUnfolding false
variable (i : Rt F) (o : List (Str × Str) → List (Str × Str))
theorem reordered_exprDisplay : @Expr.display F (reordered i o) = @Expr.display F i := by with_unfolding_all rfl
theorem reordered_compare : @compareValues F (reordered i o) = @compareValues F i := by with_unfolding_all rfl
theorem reordered_debugStr : @debugStr F (reordered i o) = @debugStr F i := by with_unfolding_all rfl
theorem reordered_parse : @parse F (reordered i o) = @parse F i := by with_unfolding_all rfl
end same

theorem evalExpr_strict [Rt F] (call : Call F) {t : Token} {op : Value F → Value F → Res (Value F)} (h : binaryOp t.kind = some op) (l r : Expr F) :
    evalExpr call (.binary t l r) = M.bind (evalExpr call l) fun a => M.bind (evalExpr call r) fun b => M.lift (op a b) := by
  rw [evalExpr, h]
  rfl

theorem evalExpr_lazy [Rt F] (call : Call F) {t : Token} (h : binaryOp (F := F) t.kind = none) (l r : Expr F) :
    evalExpr call (.binary t l r) =
      if t.kind = .Lo then M.bind (evalExpr call l) fun a => if a.falsy then evalExpr call r else M.pure a
      else if t.kind = .La then M.bind (evalExpr call l) fun a => if a.falsy then M.pure a else evalExpr call r
      else M.lift (.err (c!"not support operator: " ++ l.display ++ c!" " ++ t.literal ++ c!" " ++ r.display)) := by
  rw [evalExpr, h]
  rfl

theorem visits_one {o : List (Str × Str) → List (Str × Str)} (h : Visits o) (p : Str × Str) : o [p] = [p] := List.perm_singleton.1 (h [p])

theorem visits_none {o : List (Str × Str) → List (Str × Str)} (h : Visits o) : o [] = [] := List.perm_nil.1 (h [])

section
variable {i : Rt F} {o : List (Str × Str) → List (Str × Str)} (hi : Visits i.order) (ho : Visits o)
include hi ho

theorem debugList_order : ∀ {items : List (Value F)}, (∀ v ∈ items, @Value.debug F (reordered i o) v = @Value.debug F i v) →
    @Value.debugList F (reordered i o) items = @Value.debugList F i items
  | [], _ => rfl
  | v :: l, h => by
    have h1 := h v List.mem_cons_self
    have h2 := debugList_order (items := l) fun w hw => h w (List.mem_cons_of_mem _ hw)
    change @Value.debug F (reordered i o) v :: @Value.debugList F (reordered i o) l = @Value.debug F i v :: @Value.debugList F i l
    rw [h1, h2]

/-- The text of the entries of a map with at most one entry. -/
def entryText (p : Str × Str) : Str := p.1 ++ c!": " ++ p.2

theorem entries_order {k : Str} {v : Value F} (h : @Value.debug F (reordered i o) v = @Value.debug F i v) :
    o (@Value.debugPairs F (reordered i o) [(k, v)]) = i.order (@Value.debugPairs F i [(k, v)]) := by
  change o [(@debugStr F (reordered i o) k, @Value.debug F (reordered i o) v)] = i.order [(@debugStr F i k, @Value.debug F i v)]
  rw [h, visits_one hi, visits_one ho]
  rfl

/-- The `Debug` text of a value without larger maps is the same in every order. -/
theorem oneWay_debug {v : Value F} (h : OneWay v) : @Value.debug F (reordered i o) v = @Value.debug F i v := by
  induction h with
  | arr items _ ih => exact congrArg (fun l => c!"Array([" ++ joinStr c!", " l ++ c!"])") (debugList_order hi ho ih)
  | none =>
    exact congrArg (fun l : List (Str × Str) => c!"Map({" ++ joinStr c!", " (l.map fun p => p.1 ++ c!": " ++ p.2) ++ c!"})")
      ((visits_none ho).trans (visits_none hi).symm)
  | one k v _ ih =>
    exact congrArg (fun l : List (Str × Str) => c!"Map({" ++ joinStr c!", " (l.map fun p => p.1 ++ c!": " ++ p.2) ++ c!"})") (entries_order hi ho ih)
  | null => rfl
  | int => rfl
  | float => rfl
  | bool => rfl
  | str => rfl

/-- The text of a value without larger maps is the same in every order. -/
theorem oneWay_display {v : Value F} (h : OneWay v) : @Value.display F (reordered i o) v = @Value.display F i v := by
  cases h with
  | arr items h => exact congrArg (fun l => c!"[" ++ joinStr c!", " l ++ c!"]") (debugList_order hi ho fun v hv => oneWay_debug hi ho (h v hv))
  | none =>
    exact congrArg (fun l : List (Str × Str) => c!"{" ++ joinStr c!", " (l.map fun p => p.1 ++ c!": " ++ p.2) ++ c!"}")
      ((visits_none ho).trans (visits_none hi).symm)
  | one k v h =>
    exact congrArg (fun l : List (Str × Str) => c!"{" ++ joinStr c!", " (l.map fun p => p.1 ++ c!": " ++ p.2) ++ c!"}") (entries_order hi ho (oneWay_debug hi ho h))
  | null => rfl
  | int => rfl
  | float => rfl
  | bool => rfl
  | str => rfl

/-! ## Operations -/

theorem mismatch_order (op : Str) {a b : Value F} (ha : OneWay a) (hb : OneWay b) :
    @mismatch F (reordered i o) op a b = @mismatch F i op a b := by
  change Res.err (_ ++ @Value.display F (reordered i o) a ++ _ ++ op ++ _ ++ @Value.display F (reordered i o) b) = Res.err (_ ++ @Value.display F i a ++ _ ++ op ++ _ ++ @Value.display F i b)
  rw [oneWay_display hi ho ha, oneWay_display hi ho hb]

theorem index_order (v k : Value F) (h : ∀ x ∈ @shownIndex F i v k, OneWay x) : @indexValue F (reordered i o) v k = @indexValue F i v k := by
  cases v with
  | map pairs =>
    have h1 : OneWay k := h k List.mem_cons_self
    have e : ∀ r : Rt F, @indexValue F r (.map pairs) k = .ok ((amGet (@Value.display F r k) pairs).getD .null) := fun r => by cases k <;> rfl
    rw [e, e, oneWay_display hi ho h1]
  | arr items => cases k with
    | int n => rfl
    | _ => exact congrArg (fun t => Res.err (c!"index operator not support: " ++ t)) (oneWay_debug hi ho (h _ List.mem_cons_self))
  | _ => rfl

theorem field_order (v : Value F) (n : Str) (h : ∀ x ∈ named (@fieldValue F i v n) [v], OneWay x) : @fieldValue F (reordered i o) v n = @fieldValue F i v n := by
  cases v with
  | map pairs => rfl
  | arr items => exact congrArg (fun t => Res.err (c!"field operator not support: " ++ t)) (oneWay_debug hi ho (h _ List.mem_cons_self))
  | _ => rfl

theorem unary_order (t : Token) (v : Value F) (h : ∀ x ∈ named (@unaryValue F i t v) [v], OneWay x) : @unaryValue F (reordered i o) t v = @unaryValue F i t v := by
  have hd : (∃ e, @unaryValue F i t v = .err e) → @Value.debug F (reordered i o) v = @Value.debug F i v := by
    rintro ⟨e, he⟩
    rw [he] at h
    exact oneWay_debug hi ho (h v List.mem_cons_self)
  obtain ⟨k, lit⟩ := t
  revert hd
  clear h
  have key : ∀ w : Value F, ((∃ e, Res.err (c!"unknown operator: " ++ lit ++ @Value.debug F i w) = (Res.err e : Res (Value F))) → @Value.debug F (reordered i o) w = @Value.debug F i w) →
      (Res.err (c!"unknown operator: " ++ lit ++ @Value.debug F (reordered i o) w) : Res (Value F)) = Res.err (c!"unknown operator: " ++ lit ++ @Value.debug F i w) := by
    intro w hw
    rw [hw ⟨_, rfl⟩]
  cases k
  case Not => intro _; cases v with
    | bool b => cases b <;> rfl
    | _ => rfl
  case Sub => cases v with
    | arr items => exact key _
    | map pairs => exact key _
    | _ => intro _; rfl
  all_goals exact key v

theorem binary_order (k : Kind) : (@binaryOp F i k = none ∧ @binaryOp F (reordered i o) k = none) ∨
    ∃ p p', @binaryOp F i k = some p ∧ @binaryOp F (reordered i o) k = some p' ∧ ∀ a b, (∀ x ∈ named (p a b) [a, b], OneWay x) → p' a b = p a b := by
  have key : ∀ (op : Str) (a b : Value F), (∀ x ∈ named (@mismatch F i op a b) [a, b], OneWay x) → @mismatch F (reordered i o) op a b = @mismatch F i op a b :=
    fun op a b h => mismatch_order hi ho op (h a List.mem_cons_self) (h b (List.mem_cons_of_mem _ List.mem_cons_self))
  cases k
  case Add => exact Or.inr ⟨_, _, rfl, rfl, fun a b => by cases a <;> cases b <;> first | exact key _ _ _ | exact fun _ => rfl⟩
  case Sub => exact Or.inr ⟨_, _, rfl, rfl, fun a b => by cases a <;> cases b <;> first | exact key _ _ _ | exact fun _ => rfl⟩
  case Mul => exact Or.inr ⟨_, _, rfl, rfl, fun a b => by cases a <;> cases b <;> first | exact key _ _ _ | exact fun _ => rfl⟩
  case Div => exact Or.inr ⟨_, _, rfl, rfl, fun a b => by cases a <;> cases b <;> first | exact key _ _ _ | exact fun _ => rfl⟩
  case Rem => exact Or.inr ⟨_, _, rfl, rfl, fun a b => by cases a <;> cases b <;> first | exact key _ _ _ | exact fun _ => rfl⟩
  case Bx => exact Or.inr ⟨_, _, rfl, rfl, fun a b => by cases a <;> cases b <;> first | exact key _ _ _ | exact fun _ => rfl⟩
  case Bo => exact Or.inr ⟨_, _, rfl, rfl, fun a b => by cases a <;> cases b <;> first | exact key _ _ _ | exact fun _ => rfl⟩
  case Ba => exact Or.inr ⟨_, _, rfl, rfl, fun a b => by cases a <;> cases b <;> first | exact key _ _ _ | exact fun _ => rfl⟩
  case Sl => exact Or.inr ⟨_, _, rfl, rfl, fun a b => by cases a <;> cases b <;> first | exact key _ _ _ | exact fun _ => rfl⟩
  case Sr => exact Or.inr ⟨_, _, rfl, rfl, fun a b => by cases a <;> cases b <;> first | exact key _ _ _ | exact fun _ => rfl⟩
  case Lt => exact Or.inr ⟨_, _, rfl, rfl, fun a b _ => congrArg (fun r => Res.ok (Value.bool (r.getD false))) (congrFun (congrFun (congrFun (reordered_compare i o) .Lt) a) b)⟩
  case Gt => exact Or.inr ⟨_, _, rfl, rfl, fun a b _ => congrArg (fun r => Res.ok (Value.bool (r.getD false))) (congrFun (congrFun (congrFun (reordered_compare i o) .Gt) a) b)⟩
  case Le => exact Or.inr ⟨_, _, rfl, rfl, fun a b _ => congrArg (fun r => Res.ok (Value.bool (r.getD false))) (congrFun (congrFun (congrFun (reordered_compare i o) .Le) a) b)⟩
  case Ge => exact Or.inr ⟨_, _, rfl, rfl, fun a b _ => congrArg (fun r => Res.ok (Value.bool (r.getD false))) (congrFun (congrFun (congrFun (reordered_compare i o) .Ge) a) b)⟩
  case Eq => exact Or.inr ⟨_, _, rfl, rfl, fun a b _ => congrArg (fun r => Res.ok (Value.bool (r.getD false))) (congrFun (congrFun (congrFun (reordered_compare i o) .Eq) a) b)⟩
  case Ne => exact Or.inr ⟨_, _, rfl, rfl, fun a b _ => congrArg (fun r => Res.ok (Value.bool (r.getD false))) (congrFun (congrFun (congrFun (reordered_compare i o) .Ne) a) b)⟩
  all_goals exact Or.inl ⟨rfl, rfl⟩

theorem native_order (name : Str) (args : List (Value F)) (h : ∀ x ∈ @shownNative F name args, OneWay x) (s : St F) :
    @callNative F (reordered i o) name args s = @callNative F i name args s := by
  have hf : (∀ x ∈ args, OneWay x) → @nativeFormat F (reordered i o) args = @nativeFormat F i args := by
    intro h
    cases args with
    | nil => rfl
    | cons v l => cases v with
      | str f =>
        have e : ∀ l : List (Value F), (∀ x ∈ l, OneWay x) → l.map (@Value.display F (reordered i o)) = l.map (@Value.display F i) :=
          fun l hl => List.map_congr_left fun x hx => oneWay_display hi ho (hl x hx)
        unfold nativeFormat
        dsimp only
        rw [e l.reverse fun x hx => h x (List.mem_cons_of_mem _ (List.mem_reverse.1 hx))]
      | _ => rfl
  have hl : @nativeLength F (reordered i o) args = @nativeLength F i args := by
    match args with
    | [] => rfl
    | [.str _] => rfl
    | [.arr _] => rfl
    | [.map _] => rfl
    | [.null] => rfl
    | [.int _] => rfl
    | [.float _] => rfl
    | [.bool _] => rfl
    | a :: b :: l => cases a <;> rfl
  have hd : ∀ v, @nativeFormat F i args = .ok v → @Value.display F (reordered i o) v = @Value.display F i v := by
    intro v hv
    unfold nativeFormat at hv
    split at hv
    · dsimp only at hv
      split at hv
      · cases hv
      · cases hv; rfl
    · cases hv
    · cases hv
  by_cases h1 : name = c!"println"
  · subst h1
    have e := hf h
    change M.bind (M.lift (@nativeFormat F (reordered i o) args)) (fun v => M.bind (M.modify fun s => { s with out := s.out ++ @Value.display F (reordered i o) v ++ c!"\n" }) fun _ => M.pure (Value.null : Value F)) s =
      M.bind (M.lift (@nativeFormat F i args)) (fun v => M.bind (M.modify fun s => { s with out := s.out ++ @Value.display F i v ++ c!"\n" }) fun _ => M.pure (Value.null : Value F)) s
    rw [e]
    cases hn : @nativeFormat F i args with
    | ok v => simp only [M.bind, M.lift, hd v hn]
    | _ => rfl
  · by_cases h2 : name = c!"print"
    · subst h2
      have e := hf h
      change M.bind (M.lift (@nativeFormat F (reordered i o) args)) (fun v => M.bind (M.modify fun s => { s with out := s.out ++ @Value.display F (reordered i o) v }) fun _ => M.pure (Value.null : Value F)) s =
        M.bind (M.lift (@nativeFormat F i args)) (fun v => M.bind (M.modify fun s => { s with out := s.out ++ @Value.display F i v }) fun _ => M.pure (Value.null : Value F)) s
      rw [e]
      cases hn : @nativeFormat F i args with
      | ok v => simp only [M.bind, M.lift, hd v hn]
      | _ => rfl
    · by_cases h3 : name = c!"format"
      · subst h3
        exact congrArg (fun r => M.lift r s) (hf h)
      · unfold callNative
        rw [if_neg h1, if_neg h1, if_neg h2, if_neg h2, if_neg h3, if_neg h3, hl]

/-! ## Evaluation -/

theorem bind_order {α β : Type} {m m' : M F α} {f f' : α → M F β} {s : St F} (h : m' s = m s) (hf : ∀ a t, m s = (.ok a, t) → f' a t = f a t) :
    M.bind m' f' s = M.bind m f s := by
  unfold M.bind
  rw [h]
  cases hm : m s with
  | mk r t => cases r with
    | ok a => exact hf a t hm
    | _ => rfl

theorem after_ok {α : Type} {m : M F α} {f : α → St F → List (Value F)} {s t : St F} {a : α} {P : Value F → Prop} (h : ∀ x ∈ after m f s, P x) (hm : m s = (.ok a, t)) :
    ∀ x ∈ f a t, P x := by
  unfold after at h
  rw [hm] at h
  exact h

section eval
variable {call call' : Call F} {shows : Str → List (Value F) → St F → List (Value F)}
  (hc : ∀ n vs s, (∀ x ∈ shows n vs s, OneWay x) → call' n vs s = call n vs s)
include hc

mutual
theorem evalExpr_order : ∀ (e : Expr F) (s : St F), (∀ x ∈ @shownExpr F i call shows e s, OneWay x) →
    @evalExpr F (reordered i o) call' e s = @evalExpr F i call e s
  | .int _, _, _ => rfl
  | .float _, _, _ => rfl
  | .bool _, _, _ => rfl
  | .str _, _, _ => rfl
  | .ident _, _, _ => rfl
  | .arr items, s, h => bind_order hi ho (evalList_order items s h) fun _ _ _ => rfl
  | .map pairs, s, h => bind_order hi ho (evalPairs_order pairs [] s h) fun _ _ _ => rfl
  | .index l j, s, h => by
    have ihl := evalExpr_order l
    have ihj := evalExpr_order j
    have hx := List.forall_mem_append.1 h
    refine bind_order hi ho (ihl s hx.1) fun v t hm => ?_
    have hy := List.forall_mem_append.1 (after_ok hi ho hx.2 hm)
    refine bind_order hi ho (ihj t hy.1) fun k u hk => ?_
    exact congrArg (fun r => (r, u)) (index_order hi ho v k (after_ok hi ho hy.2 hk))
  | .field l n, s, h => by
    have ihl := evalExpr_order l
    have hx := List.forall_mem_append.1 h
    refine bind_order hi ho (ihl s hx.1) fun v t hm => ?_
    exact congrArg (fun r => (r, t)) (field_order hi ho v n (after_ok hi ho hx.2 hm))
  | .letE n e, s, h => bind_order hi ho (evalExpr_order e s h) fun _ _ _ => rfl
  | .unary k e, s, h => by
    have ihl := evalExpr_order e
    have hx := List.forall_mem_append.1 h
    refine bind_order hi ho (ihl s hx.1) fun v t hm => ?_
    exact congrArg (fun r => (r, t)) (unary_order hi ho k v (after_ok hi ho hx.2 hm))
  | .binary k l r, s, h => by
    have ihl := evalExpr_order l
    have ihr := evalExpr_order r
    have hx := List.forall_mem_append.1 h
    have h1 := ihl s hx.1
    rcases binary_order hi ho k.kind with ⟨e1, e2⟩ | ⟨p, p', e1, e2, e3⟩
    · rw [@evalExpr_lazy F (reordered i o) call' k e2, @evalExpr_lazy F i call k e1, reordered_exprDisplay]
      by_cases hlo : k.kind = .Lo
      · rw [if_pos hlo, if_pos hlo]
        refine bind_order hi ho h1 fun a t hm => ?_
        have hy := after_ok hi ho hx.2 hm
        rw [e1] at hy
        dsimp only at hy
        by_cases hf : a.falsy = true
        · rw [if_pos hf, if_pos hf]
          rw [if_pos (Or.inl ⟨hlo, hf⟩)] at hy
          exact ihr t hy
        · rw [if_neg hf, if_neg hf]
      · rw [if_neg hlo, if_neg hlo]
        by_cases hla : k.kind = .La
        · rw [if_pos hla, if_pos hla]
          refine bind_order hi ho h1 fun a t hm => ?_
          have hy := after_ok hi ho hx.2 hm
          rw [e1] at hy
          dsimp only at hy
          by_cases hf : a.falsy = true
          · rw [if_pos hf, if_pos hf]
          · rw [if_neg hf, if_neg hf]
            rw [if_pos (Or.inr ⟨hla, by simpa using hf⟩)] at hy
            exact ihr t hy
        · rw [if_neg hla, if_neg hla]
    · rw [@evalExpr_strict F (reordered i o) call' k p' e2, @evalExpr_strict F i call k p e1]
      refine bind_order hi ho h1 fun a t hm => ?_
      have hy := after_ok hi ho hx.2 hm
      rw [e1] at hy
      dsimp only at hy
      have hz := List.forall_mem_append.1 hy
      refine bind_order hi ho (ihr t hz.1) fun b u hb => ?_
      exact congrArg (fun r => (r, u)) (e3 a b (after_ok hi ho hz.2 hb))
  | .paren e, s, h => evalExpr_order e s h
  | .ifE c t e, s, h => by
    have ihc := evalExpr_order c
    have iht := evalBlock_order t
    have ihe := evalBlock_order e
    have hx := List.forall_mem_append.1 h
    refine bind_order hi ho (ihc s hx.1) fun v u hm => ?_
    have hy := after_ok hi ho hx.2 hm
    by_cases hf : v.falsy = true
    · rw [if_pos hf, if_pos hf]
      rw [if_pos hf] at hy
      exact ihe .null u hy
    · rw [if_neg hf, if_neg hf]
      rw [if_neg hf] at hy
      exact iht .null u hy
  | .call f args, s, h => by
    have iha := evalList_order args
    have hx := List.forall_mem_append.1 h
    exact bind_order hi ho (iha s hx.1) fun v u hm => hc f v u (after_ok hi ho hx.2 hm)
theorem evalList_order : ∀ (l : List (Expr F)) (s : St F), (∀ x ∈ @shownList F i call shows l s, OneWay x) →
    @evalList F (reordered i o) call' l s = @evalList F i call l s
  | [], _, _ => rfl
  | e :: l, s, h => by
    have ih1 := evalExpr_order e
    have ih2 := evalList_order l
    have hx := List.forall_mem_append.1 h
    refine bind_order hi ho (ih1 s hx.1) fun v u hm => ?_
    have hy := after_ok hi ho hx.2 hm
    exact bind_order hi ho (ih2 u hy) fun _ _ _ => rfl
theorem evalPairs_order : ∀ (l : List (Expr F × Expr F)) (acc : List (Str × Value F)) (s : St F), (∀ x ∈ @shownPairs F i call shows l s, OneWay x) →
    @evalPairs F (reordered i o) call' acc l s = @evalPairs F i call acc l s
  | [], _, _, _ => rfl
  | (k, v) :: l, acc, s, h => by
    have ih1 := evalExpr_order k
    have ih2 := evalExpr_order v
    have ih3 := evalPairs_order l
    have hx := List.forall_mem_append.1 h
    refine bind_order hi ho (ih1 s hx.1) fun a u hm => ?_
    have hy := List.forall_mem_cons.1 (after_ok hi ho hx.2 hm)
    have hz := List.forall_mem_append.1 hy.2
    refine bind_order hi ho (ih2 u hz.1) fun b w hm2 => ?_
    rw [oneWay_display hi ho hy.1]
    have hw := after_ok hi ho hz.2 hm2
    exact ih3 _ w hw
theorem evalBlock_order : ∀ (l : List (Expr F)) (acc : Value F) (s : St F), (∀ x ∈ @shownBlock F i call shows l s, OneWay x) →
    @evalBlock F (reordered i o) call' acc l s = @evalBlock F i call acc l s
  | [], _, _, _ => rfl
  | e :: l, acc, s, h => by
    have ih1 := evalExpr_order e
    have ih2 := evalBlock_order l
    have hx := List.forall_mem_append.1 h
    refine bind_order hi ho (ih1 s hx.1) fun v u hm => ?_
    have hy := after_ok hi ho hx.2 hm
    exact ih2 v u hy
end

theorem orElse_order {α : Type} {m m' : M F α} {d : α} {s : St F} (h : m' s = m s) : (m'.orElse d) s = (m.orElse d) s := by
  unfold M.orElse
  rw [h]

theorem evalAsserts_order : ∀ (l : List (Expr F)) (s : St F), (∀ x ∈ @shownAsserts F i call shows l s, OneWay x) →
    @evalAsserts F (reordered i o) call' l s = @evalAsserts F i call l s
  | [], _, _ => rfl
  | .binary k l r :: rest, s, h => by
    have ih := evalAsserts_order rest
    have hx := List.forall_mem_append.1 h
    refine bind_order hi ho (orElse_order hi ho hc (evalExpr_order hi ho hc l s hx.1)) fun a t hm => ?_
    have hy := List.forall_mem_append.1 (after_ok hi ho hx.2 hm)
    refine bind_order hi ho (orElse_order hi ho hc (evalExpr_order hi ho hc r t hy.1)) fun b u hb => ?_
    have hz := List.forall_mem_append.1 (after_ok hi ho hy.2 hb)
    refine bind_order hi ho (ih u hz.2) fun as w _ => ?_
    have hw := hz.1
    rw [reordered_compare, reordered_exprDisplay]
    cases hcmp : @compareValues F i k.kind a b with
    | none => rfl
    | some q =>
      rw [hcmp] at hw
      rw [oneWay_display hi ho (hw a List.mem_cons_self), oneWay_display hi ho (hw b (List.mem_cons_of_mem _ List.mem_cons_self))]
  | .int _ :: rest, s, h => evalAsserts_order rest s h
  | .float _ :: rest, s, h => evalAsserts_order rest s h
  | .bool _ :: rest, s, h => evalAsserts_order rest s h
  | .str _ :: rest, s, h => evalAsserts_order rest s h
  | .ident _ :: rest, s, h => evalAsserts_order rest s h
  | .arr _ :: rest, s, h => evalAsserts_order rest s h
  | .map _ :: rest, s, h => evalAsserts_order rest s h
  | .index _ _ :: rest, s, h => evalAsserts_order rest s h
  | .field _ _ :: rest, s, h => evalAsserts_order rest s h
  | .letE _ _ :: rest, s, h => evalAsserts_order rest s h
  | .unary _ _ :: rest, s, h => evalAsserts_order rest s h
  | .paren _ :: rest, s, h => evalAsserts_order rest s h
  | .ifE _ _ _ :: rest, s, h => evalAsserts_order rest s h
  | .call _ _ :: rest, s, h => evalAsserts_order rest s h

end eval

mutual
theorem literal_order : ∀ (e : Expr F), (∀ x ∈ @shownKeys F i e, OneWay x) → @Expr.eval F (reordered i o) e = @Expr.eval F i e
  | .int _, _ => rfl
  | .float _, _ => rfl
  | .bool _, _ => rfl
  | .str _, _ => rfl
  | .ident _, _ => rfl
  | .arr items, h => congrArg Value.arr (literalList_order items h)
  | .map pairs, h => congrArg Value.map (literalPairs_order pairs [] h)
  | .index _ _, _ => rfl
  | .field _ _, _ => rfl
  | .letE _ _, _ => rfl
  | .unary _ _, _ => rfl
  | .binary _ _ _, _ => rfl
  | .paren _, _ => rfl
  | .ifE _ _ _, _ => rfl
  | .call _ _, _ => rfl
theorem literalList_order : ∀ (l : List (Expr F)), (∀ x ∈ @shownKeysList F i l, OneWay x) → @Expr.evalItems F (reordered i o) l = @Expr.evalItems F i l
  | [], _ => rfl
  | e :: l, h => by
    have ih1 := literal_order e
    have ih2 := literalList_order l
    have hx := List.forall_mem_append.1 h
    change @Expr.eval F (reordered i o) e :: @Expr.evalItems F (reordered i o) l = @Expr.eval F i e :: @Expr.evalItems F i l
    rw [ih1 hx.1, ih2 hx.2]
theorem literalPairs_order : ∀ (l : List (Expr F × Expr F)) (acc : List (Str × Value F)), (∀ x ∈ @shownKeysPairs F i l, OneWay x) →
    @Expr.evalPairs F (reordered i o) acc l = @Expr.evalPairs F i acc l
  | [], _, _ => rfl
  | (k, v) :: l, acc, h => by
    have ih1 := literal_order k
    have ih2 := literal_order v
    have ih3 := literalPairs_order l
    have hx := List.forall_mem_cons.1 h
    have hy := List.forall_mem_append.1 hx.2
    have hz := List.forall_mem_append.1 hy.1
    change @Expr.evalPairs F (reordered i o) (amInsert (@Value.display F (reordered i o) (@Expr.eval F (reordered i o) k)) (@Expr.eval F (reordered i o) v) acc) l =
      @Expr.evalPairs F i (amInsert (@Value.display F i (@Expr.eval F i k)) (@Expr.eval F i v) acc) l
    rw [ih1 hz.1, ih2 hz.2, oneWay_display hi ho hx.1]
    exact ih3 _ hy.2
end

theorem toMap_order (r : Response) (h : ∀ x ∈ @shownBody F i r.body, OneWay x) : @Response.toMap F (reordered i o) r = @Response.toMap F i r := by
  unfold shownBody at h
  unfold Response.toMap
  rw [reordered_parse]
  cases hp : @parse F i r.body with
  | ok src =>
    rw [hp] at h
    dsimp only at h ⊢
    cases he : src.exprs with
    | nil => rfl
    | cons e l =>
      rw [he] at h
      dsimp only at h ⊢
      rw [literal_order hi ho e h]
  | _ => rfl

theorem render_order (ctx : Context F) (message : Str) (h : ∀ x ∈ (findTemplates message).filterMap (fun m => ctx.get m.1), OneWay x) :
    @render F (reordered i o) ctx message = @render F i ctx message := by
  unfold render
  congr 1
  refine List.map_congr_left fun m hm => ?_
  congr 1
  unfold varText
  cases hg : ctx.get m.1 with
  | none => rfl
  | some v => exact oneWay_display hi ho (h v (List.mem_filterMap.2 ⟨m, List.mem_reverse.1 hm, hg⟩))

theorem request_order (net : Net) {call call' : Call F} {shows : Str → List (Value F) → St F → List (Value F)}
    (hc : ∀ n vs s, (∀ x ∈ shows n vs s, OneWay x) → call' n vs s = call n vs s) (name message : Str) (asserts : List (Expr F)) (s : St F)
    (h : ∀ x ∈ @shownRequest F i net call shows message asserts s, OneWay x) :
    @callRequest F (reordered i o) net call' name message asserts s = @callRequest F i net call name message asserts s := by
  unfold shownRequest at h
  have hx := List.forall_mem_append.1 h
  have hr := render_order hi ho s.ctx message hx.1
  have hx2 := hx.2
  have body : ∀ rt c, @callRequest F rt net c name message asserts s =
      match send net s.sent (@render F rt s.ctx message) with
      | .ok (request, response, time, error) =>
        match @Response.toMap F rt response with
        | .ok map =>
          M.bind (inLocal map (@evalAsserts F rt c asserts)) (fun p => M.bind (M.modify fun s => { s with ctx := s.ctx.push ⟨name, time, request, response, p.1, error⟩ })
            fun _ => M.pure (.map p.2)) { s with sent := s.sent ++ [@render F rt s.ctx message] }
        | .err e => (.err e, { s with sent := s.sent ++ [@render F rt s.ctx message] })
        | .panic => (.panic, { s with sent := s.sent ++ [@render F rt s.ctx message] })
        | .hang => (.hang, { s with sent := s.sent ++ [@render F rt s.ctx message] })
      | .err e => (.err e, { s with sent := s.sent ++ [@render F rt s.ctx message] })
      | .panic => (.panic, { s with sent := s.sent ++ [@render F rt s.ctx message] })
      | .hang => (.hang, { s with sent := s.sent ++ [@render F rt s.ctx message] }) := by
    intro rt c
    unfold callRequest
    simp only [Bind.bind, Pure.pure, M.bind, M.get, M.modify, M.lift]
    cases send net s.sent (@render F rt s.ctx message) with
    | ok p =>
      obtain ⟨request, response, time, error⟩ := p
      dsimp only
      cases @Response.toMap F rt response <;> rfl
    | _ => rfl
  rw [body, body, hr]
  cases hs : send net s.sent (@render F i s.ctx message) with
  | ok p =>
    obtain ⟨request, response, time, error⟩ := p
    rw [hs] at hx2
    have hy := List.forall_mem_append.1 hx2
    have hy2 := hy.2
    dsimp only
    rw [toMap_order hi ho response hy.1]
    cases hm : @Response.toMap F i response with
    | ok map =>
      rw [hm] at hy2
      dsimp only
      refine bind_order hi ho ?_ fun _ _ _ => rfl
      unfold inLocal
      dsimp only
      rw [evalAsserts_order hi ho hc asserts _ hy2]
    | _ => rfl
  | _ => rfl

theorem call_order (net : Net) : ∀ (n : Nat) (name : Str) (args : List (Value F)) (s : St F), (∀ x ∈ @shownCall F i net n name args s, OneWay x) →
    @callAt F (reordered i o) net n name args s = @callAt F i net n name args s
  | 0, name, args, s, h => by
    unfold callAt
    cases s.ctx.request name with
    | some p => rfl
    | none => exact native_order hi ho name args h s
  | n + 1, name, args, s, h => by
    unfold callAt
    unfold shownCall at h
    cases hr : s.ctx.request name with
    | some p =>
      obtain ⟨message, asserts⟩ := p
      rw [hr] at h
      exact request_order hi ho net (call_order net n) name message asserts s h
    | none =>
      rw [hr] at h
      exact native_order hi ho name args h s

end

/-- C114, partial: if no value that a run turns into text has a map with two or more entries, the run does the same in every iteration order of hash
maps: the same result or the same error, the same variables and records, the same messages sent and the same text printed. -/
theorem c114_block_partial (i : Rt F) (o : List (Str × Str) → List (Str × Str)) (hi : Visits i.order) (ho : Visits o) (net : Net) (es : List (Expr F)) (s : St F)
    (h : ∀ x ∈ @shownRun F i net es s, OneWay x) : @runBlock F (reordered i o) net es s = @runBlock F i net es s :=
  evalBlock_order hi ho (call_order hi ho net 1) es .null s h

/-- C114, partial: the same for `am eval` and for the lines of a session. -/
theorem c114_text_partial (i : Rt F) (o : List (Str × Str) → List (Str × Str)) (hi : Visits i.order) (ho : Visits o) (net : Net) (text : Str) (s : St F)
    (h : ∀ x ∈ @shownText F i net text s, OneWay x) : @evalText F (reordered i o) net text s = @evalText F i net text s := by
  unfold shownText at h
  unfold evalText
  rw [reordered_parse]
  cases hp : @parse F i text with
  | ok src =>
    rw [hp] at h
    dsimp only at h ⊢
    have hx := List.forall_mem_append.1 h
    have e := c114_block_partial i o hi ho net src.exprs { s with ctx := s.ctx.extend src.requests } hx.1
    refine bind_order (i := i) hi ho rfl fun _ t ht => ?_
    cases ht
    dsimp only
    rw [e]
    cases hr : @runBlock F i net src.exprs { s with ctx := s.ctx.extend src.requests } with
    | mk r u => cases r with
      | ok v =>
        have hv := after_ok (i := i) hi ho hx.2 hr
        dsimp only
        rw [oneWay_display hi ho (hv v List.mem_cons_self)]
      | _ => rfl
  | _ => rfl

/-- C114, partial: the same for a whole session. -/
theorem c114_session_partial (i : Rt F) (o : List (Str × Str) → List (Str × Str)) (hi : Visits i.order) (ho : Visits o) (net : Net) :
    ∀ (input : List Input) (s : St F), (∀ x ∈ @shownSession F i net input s, OneWay x) → @replLoop F (reordered i o) net input s = @replLoop F i net input s
  | [], _, _ => rfl
  | .bad :: rest, s, h => c114_session_partial i o hi ho net rest s h
  | .line text :: rest, s, h => by
    have ih := c114_session_partial i o hi ho net rest
    unfold shownSession at h
    unfold replLoop
    by_cases h1 : text = c!"exit"
    · rw [if_pos h1, if_pos h1]
    · rw [if_neg h1] at h ⊢
      rw [if_neg h1]
      by_cases h2 : (trim text).isEmpty = true
      · rw [if_pos h2] at h ⊢
        rw [if_pos h2]
        exact ih s h
      · rw [if_neg h2] at h ⊢
        rw [if_neg h2]
        have hx := List.forall_mem_append.1 h
        refine bind_order (i := i) hi ho (c114_text_partial i o hi ho net text s hx.1) fun _ t ht => ?_
        have hy := after_ok (i := i) hi ho hx.2 ht
        exact ih t hy

/-! ## Cases -/

mutual
/-- Whether no map in a value has more than one entry. -/
def isOneWay : Value F → Bool
  | .arr items => isOneWayList items
  | .map pairs => isOneWayPairs pairs && pairs.length < 2
  | _ => true
termination_by structural v => v
/-- The same for all values of a list. -/
def isOneWayList : List (Value F) → Bool
  | [] => true
  | v :: l => isOneWay v && isOneWayList l
termination_by structural l => l
/-- The same for the values of a map. -/
def isOneWayPairs : List (Str × Value F) → Bool
  | [] => true
  | (_, v) :: l => isOneWay v && isOneWayPairs l
termination_by structural l => l
end

mutual
theorem isOneWay_iff : ∀ v : Value F, isOneWay v = true ↔ OneWay v
  | .null => ⟨fun _ => .null, fun _ => rfl⟩
  | .int n => ⟨fun _ => .int n, fun _ => rfl⟩
  | .float f => ⟨fun _ => .float f, fun _ => rfl⟩
  | .bool b => ⟨fun _ => .bool b, fun _ => rfl⟩
  | .str s => ⟨fun _ => .str s, fun _ => rfl⟩
  | .arr items => by
    rw [isOneWay, isOneWayList_iff items]
    exact ⟨.arr items, fun h => by cases h; assumption⟩
  | .map pairs => by
    have ih := isOneWayPairs_iff pairs
    rw [isOneWay, Bool.and_eq_true, ih, decide_eq_true_iff]
    constructor
    · rintro ⟨h1, h2⟩
      match pairs, h1, h2 with
      | [], _, _ => exact .none
      | [(k, v)], h1, _ => exact .one k v (h1 (k, v) List.mem_cons_self)
      | _ :: _ :: _, _, h2 => simp at h2; omega
    · intro h
      cases h with
      | none => exact ⟨by simp, by simp⟩
      | one k v h => exact ⟨fun p hp => by rw [List.mem_singleton.1 hp]; exact h, by simp⟩
theorem isOneWayList_iff : ∀ l : List (Value F), isOneWayList l = true ↔ ∀ v ∈ l, OneWay v
  | [] => by simp [isOneWayList]
  | v :: l => by
    have h1 := isOneWay_iff v
    have h2 := isOneWayList_iff l
    rw [isOneWayList, Bool.and_eq_true, h1, h2, List.forall_mem_cons]
theorem isOneWayPairs_iff : ∀ l : List (Str × Value F), isOneWayPairs l = true ↔ ∀ p ∈ l, OneWay p.2
  | [] => by simp [isOneWayPairs]
  | (k, v) :: l => by
    have h1 := isOneWay_iff v
    have h2 := isOneWayPairs_iff l
    rw [isOneWayPairs, Bool.and_eq_true, h1, h2, List.forall_mem_cons]
end

set_option maxRecDepth 20000 in
/-- Concrete case for `c114_text_partial`: maps with several entries are made, compared and looked into, but only their parts are turned into text. -/
example : letI := rt64 ⟨true, fun c => [c], id⟩
    ∀ x ∈ shownText (F := F64) (answering c!"{\"a\": 1, \"b\": [2, 3]}")
      c!"request r `GET http://a/{t}\n` [ json.a == 1, status == 200 ]\nlet m = {\"x\": 1, \"y\": 2}; let t = m.x; println(\"{v}\", r().json.b); m == m"
      ⟨Context.new, [], []⟩, OneWay x :=
  (@isOneWayList_iff F64 _).1 (by decide +kernel)

set_option maxRecDepth 20000 in
/-- C114 is false: a map with two entries in the hole of a message, in one order and in the other. -/
theorem c114_false :
    (@evalText F64 (rt64 ⟨true, fun c => [c], id⟩) (answering []) c!"request r `GET http://a/{t}`\nlet t = {\"x\": 1, \"y\": 2}; r()" ⟨Context.new, [], []⟩).2.sent =
      [c!"GET http://a/{\"x\": Integer(1), \"y\": Integer(2)}"] ∧
    (@evalText F64 (rt64 ⟨true, fun c => [c], List.reverse⟩) (answering []) c!"request r `GET http://a/{t}`\nlet t = {\"x\": 1, \"y\": 2}; r()" ⟨Context.new, [], []⟩).2.sent =
      [c!"GET http://a/{\"y\": Integer(2), \"x\": Integer(1)}"] ∧
    Visits id ∧ Visits List.reverse :=
  ⟨by decide +kernel, by decide +kernel, fun l => List.Perm.refl l, fun l => List.reverse_perm l⟩

end Am
