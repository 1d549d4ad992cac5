import Verif.Proofs.HeaderOrder
/-!
# The order of headers: the evaluator
-/
set_option linter.unusedSimpArgs false
set_option linter.unusedSectionVars false
namespace Am
open Spec
variable {F : Type}

theorem unorderedRes_same {α : Type} {R : α → α → Prop} {r : Res α} (h : ∀ a, r = .ok a → R a a) : UnorderedRes R r r := by
  cases r with
  | ok a => exact .ok (h a rfl)
  | err e => exact .err e
  | panic => exact .panic
  | hang => exact .hang

theorem bind_unordered {α β : Type} {R : α → α → Prop} {R' : β → β → Prop} {m m' : M F α} {f f' : α → M F β} {s s' : St F}
    (h : UnorderedRun R (m s) (m' s')) (hf : ∀ a a' t t', m s = (.ok a, t) → R a a' → UnorderedSt t t' → UnorderedRun R' (f a t) (f' a' t')) :
    UnorderedRun R' (M.bind m f s) (M.bind m' f' s') := by
  unfold M.bind
  obtain ⟨h1, h2⟩ := h
  cases hm : m s with
  | mk r t =>
    cases hm' : m' s' with
    | mk r' t' =>
      rw [hm, hm'] at h1 h2
      dsimp only at h1 h2 ⊢
      cases h1 with
      | ok h => exact hf _ _ _ _ hm h h2
      | err e => exact ⟨.err e, h2⟩
      | panic => exact ⟨.panic, h2⟩
      | hang => exact ⟨.hang, h2⟩

theorem pure_unordered {α : Type} {R : α → α → Prop} {a a' : α} {s s' : St F} (h : R a a') (hs : UnorderedSt s s') :
    UnorderedRun R (M.pure a s) (M.pure a' s') := ⟨.ok h, hs⟩

theorem lift_unordered {α : Type} {R : α → α → Prop} {r r' : Res α} {s s' : St F} (h : UnorderedRes R r r') (hs : UnorderedSt s s') :
    UnorderedRun R (M.lift r s) (M.lift r' s') := ⟨h, hs⟩

theorem after_hold {α : Type} {m : M F α} {f : α → St F → List (Value F)} {s t : St F} {a : α} {P : Value F → Prop} (h : ∀ x ∈ after m f s, P x)
    (hm : m s = (.ok a, t)) : ∀ x ∈ f a t, P x := by
  unfold after at h
  rw [hm] at h
  exact h

theorem arr_cons {a b : Value F} {l r : List (Value F)} (h : Unordered a b) (hl : Unordered (.arr l) (.arr r)) : Unordered (.arr (a :: l)) (.arr (b :: r)) := by
  cases hl with
  | arr hlen hi =>
    refine .arr (by rw [List.length_cons, List.length_cons, hlen]) fun i x y hx hy => ?_
    cases i with
    | zero =>
      rw [List.getElem?_cons_zero] at hx hy
      cases hx
      cases hy
      exact h
    | succ i =>
      rw [List.getElem?_cons_succ] at hx hy
      exact hi i x y hx hy

theorem arr_nil : Unordered (.arr [] : Value F) (.arr []) := .arr rfl fun i a b h => by cases h

theorem arr_uncons {a : Value F} {l r : List (Value F)} (h : Unordered (.arr (a :: l)) (.arr r)) :
    ∃ b r', r = b :: r' ∧ Unordered a b ∧ Unordered (.arr l) (.arr r') := by
  cases h with
  | arr hlen hi =>
    cases r with
    | nil => cases hlen
    | cons b r' =>
      refine ⟨b, r', rfl, hi 0 a b rfl rfl, .arr (by simpa using hlen) fun i x y hx hy => hi (i + 1) x y ?_ ?_⟩
      · rw [List.getElem?_cons_succ]; exact hx
      · rw [List.getElem?_cons_succ]; exact hy

theorem arr_append {l r l' r' : List (Value F)} (h : Unordered (.arr l) (.arr r)) (h' : Unordered (.arr l') (.arr r')) : Unordered (.arr (l ++ l')) (.arr (r ++ r')) := by
  induction l generalizing r with
  | nil =>
    cases h with
    | arr hlen _ =>
      cases r with
      | nil => exact h'
      | cons => cases hlen
  | cons a l ih =>
    obtain ⟨b, r2, rfl, h1, h2⟩ := arr_uncons h
    exact arr_cons h1 (ih h2)

/-- Values without larger maps stay as they are. -/
theorem arr_oneWay {l r : List (Value F)} (hl : ∀ v ∈ l, OneWay v) (h : Unordered (.arr l) (.arr r)) : r = l := by
  have := unordered_oneWay (.arr l hl) h
  cases this
  rfl

section
variable {i : Rt F} {o : List (Str × Str) → List (Str × Str)} (hi : Visits i.order) (ho : Visits o)
include hi ho

/-! ## Operations -/

theorem index_unordered {v k v' k' : Value F} (hv : Unordered v v') (hk : Unordered k k') (h : ∀ x ∈ @shownIndex F i v k, OneWay x) :
    UnorderedRes Unordered (@indexValue F i v k) (@indexValue F (reordered i o) v' k') := by
  have err : OneWay v → (∃ e, @indexValue F i v k = .err e) → k' = k → UnorderedRes Unordered (@indexValue F i v k) (@indexValue F (reordered i o) v' k') := by
    rintro h1 ⟨e, he⟩ rfl
    rw [unordered_oneWay h1 hv, index_order hi ho v k' h, he]
    exact .err e
  cases hv with
  | @map l r hn hn' hks hvs =>
    have h1 : OneWay k := h k List.mem_cons_self
    have e : ∀ (rt : Rt F) p, @indexValue F rt (.map p) k = .ok ((amGet (@Value.display F rt k) p).getD .null) := fun rt p => by cases k <;> rfl
    rw [unordered_oneWay h1 hk, e, e, oneWay_display hi ho h1]
    rcases get_unordered (.map hn hn' hks hvs) (@Value.display F i k) with ⟨e1, e2⟩ | ⟨a, b, e1, e2, hab⟩
    · rw [e1, e2]; exact .ok .null
    · rw [e1, e2]; exact .ok hab
  | @arr l r hl hv =>
    cases hk with
    | int n =>
      refine UnorderedRes.ok ?_
      cases hx : l[n.toUInt64.toNat]? with
      | none =>
        have : r[n.toUInt64.toNat]? = none := by rw [List.getElem?_eq_none_iff] at hx ⊢; omega
        rw [this]; exact .null
      | some a =>
        have hlt : n.toUInt64.toNat < r.length := by rw [← hl]; exact (List.getElem?_eq_some_iff.1 hx).1
        rw [List.getElem?_eq_getElem hlt]
        exact hv _ _ _ hx (List.getElem?_eq_getElem hlt)
    | arr hl2 hv2 =>
      have h1 := unordered_oneWay (h _ List.mem_cons_self) (.arr hl hv)
      cases h1
      exact (congrArg (fun t => UnorderedRes Unordered (Res.err (c!"index operator not support: " ++ @Value.debug F i (.arr l)))
        (Res.err (c!"index operator not support: " ++ t) : Res (Value F))) (oneWay_debug hi ho (h _ List.mem_cons_self))).mpr (.err _)
    | map a b c d =>
      have h1 := unordered_oneWay (h _ List.mem_cons_self) (.arr hl hv)
      cases h1
      exact (congrArg (fun t => UnorderedRes Unordered (Res.err (c!"index operator not support: " ++ @Value.debug F i (.arr l)))
        (Res.err (c!"index operator not support: " ++ t) : Res (Value F))) (oneWay_debug hi ho (h _ List.mem_cons_self))).mpr (.err _)
    | _ => exact err (h _ List.mem_cons_self) ⟨_, rfl⟩ rfl
  | null => exact .err _
  | int => exact .err _
  | float => exact .err _
  | bool => exact .err _
  | str => exact .err _

theorem field_unordered {v v' : Value F} (n : Str) (hv : Unordered v v') (h : ∀ x ∈ named (@fieldValue F i v n) [v], OneWay x) :
    UnorderedRes Unordered (@fieldValue F i v n) (@fieldValue F (reordered i o) v' n) := by
  cases hv with
  | @map l r hn hn' hks hvs =>
    rcases get_unordered (.map hn hn' hks hvs) n with ⟨e1, e2⟩ | ⟨a, b, e1, e2, hab⟩
    · exact .ok (by rw [e1, e2]; exact .null)
    · exact .ok (by rw [e1, e2]; exact hab)
  | @arr l r hl hv =>
    have h1 := unordered_oneWay (h _ List.mem_cons_self) (.arr hl hv)
    cases h1
    rw [field_order hi ho _ n h]
    exact .err _
  | null => exact .err _
  | int => exact .err _
  | float => exact .err _
  | bool => exact .err _
  | str => exact .err _

theorem unary_unordered (t : Token) {v v' : Value F} (hv : Unordered v v') (h : ∀ x ∈ named (@unaryValue F i t v) [v], OneWay x) :
    UnorderedRes Unordered (@unaryValue F i t v) (@unaryValue F (reordered i o) t v') := by
  have proper : ∀ r, @unaryValue F i t v = .ok r → Unordered r r := by
    intro r hr
    obtain ⟨k, lit⟩ := t
    unfold unaryValue at hr
    split at hr
    case h_5 n _ =>
      cases hc : @checked F i (-n.toInt) with
      | ok m => rw [hc] at hr; cases hr; exact .int m
      | err e => rw [hc] at hr; cases hr
      | panic => rw [hc] at hr; cases hr
      | hang => rw [hc] at hr; cases hr
    all_goals first
      | (cases hr; first | exact .bool _ | exact .int _ | exact .float _)
      | cases hr
  by_cases hone : OneWay v
  · rw [unordered_oneWay hone hv, unary_order hi ho t v h]
    exact unorderedRes_same proper
  · have hok : t.kind = .Not := by
      refine Classical.byContradiction fun hne => hone ?_
      cases hv with
      | null => exact .null
      | int => exact .int _
      | float => exact .float _
      | bool => exact .bool _
      | str => exact .str _
      | arr _ _ =>
        refine h _ ?_
        obtain ⟨k, lit⟩ := t
        cases k <;> first | exact absurd rfl hne | exact List.mem_cons_self
      | map _ _ _ _ =>
        refine h _ ?_
        obtain ⟨k, lit⟩ := t
        cases k <;> first | exact absurd rfl hne | exact List.mem_cons_self
    obtain ⟨k, lit⟩ := t
    cases hok
    cases hv with
    | null => exact absurd .null hone
    | int => exact absurd (.int _) hone
    | float => exact absurd (.float _) hone
    | bool => exact absurd (.bool _) hone
    | str => exact absurd (.str _) hone
    | arr _ _ => exact .ok (.bool _)
    | map _ _ _ _ => exact .ok (.bool _)

/-- The value of an operator on integers holds no map. -/
theorem intResult_same {α : Type} {r : Res α} {f : α → Int64} {v : Value F} (h : (do let i ← r; pure (.int (f i)) : Res (Value F)) = .ok v) : Unordered v v := by
  cases r with
  | ok n =>
    have h : Res.ok (Value.int (f n)) = Res.ok v := h
    cases h
    exact .int _
  | err e => cases h
  | panic => cases h
  | hang => cases h

omit hi ho in
theorem arith_unordered {p p' : Value F → Value F → Res (Value F)} (hA : ∀ a b, (∃ e, p a b = .err e) ∨ (OneWay a ∧ OneWay b))
    (hB : ∀ a b r, p a b = .ok r → Unordered r r) (h3 : ∀ a b, (∀ x ∈ named (p a b) [a, b], OneWay x) → p' a b = p a b) {a b a' b' : Value F}
    (ha : Unordered a a') (hb : Unordered b b') (h : ∀ x ∈ named (p a b) [a, b], OneWay x) : UnorderedRes Unordered (p a b) (p' a' b') := by
  have one : OneWay a ∧ OneWay b := by
    rcases hA a b with ⟨e, he⟩ | h1
    · rw [he] at h
      exact ⟨h a List.mem_cons_self, h b (List.mem_cons_of_mem _ List.mem_cons_self)⟩
    · exact h1
  rw [unordered_oneWay one.1 ha, unordered_oneWay one.2 hb, h3 a b h]
  exact unorderedRes_same (hB a b)

theorem binary_unordered (k : Kind) : (@binaryOp F i k = none ∧ @binaryOp F (reordered i o) k = none) ∨
    ∃ p p', @binaryOp F i k = some p ∧ @binaryOp F (reordered i o) k = some p' ∧ ∀ a b a' b', Unordered a a' → Unordered b b' →
      (∀ x ∈ named (p a b) [a, b], OneWay x) → UnorderedRes Unordered (p a b) (p' a' b') := by
  rcases binary_order hi ho k with h | ⟨p, p', h1, h2, h3⟩
  · exact .inl h
  · refine .inr ⟨p, p', h1, h2, ?_⟩
    have key := @arith_unordered F p p'
    have flat : (∀ a b, (∃ e, p a b = .err e) ∨ (OneWay a ∧ OneWay b)) → (∀ a b r, p a b = .ok r → Unordered r r) → ∀ a b a' b', Unordered a a' → Unordered b b' →
        (∀ x ∈ named (p a b) [a, b], OneWay x) → UnorderedRes Unordered (p a b) (p' a' b') := fun hA hB a b a' b' ha hb h => key hA hB h3 ha hb h
    have judge : (∀ a b, ∃ q, compareValues k a b = some q ∧ p a b = .ok (.bool q) ∧ p' a b = .ok (.bool q)) → ∀ a b a' b', Unordered a a' → Unordered b b' →
        (∀ x ∈ named (p a b) [a, b], OneWay x) → UnorderedRes Unordered (p a b) (p' a' b') := by
      intro hq a b a' b' ha hb _
      obtain ⟨q, e1, e2, _⟩ := hq a b
      obtain ⟨q', e1', _, e3'⟩ := hq a' b'
      rw [compare_unordered k ha hb, e1] at e1'
      cases e1'
      rw [e2, e3']
      exact .ok (.bool _)
    clear key
    cases k
    case Lt => cases h1; cases h2; exact judge fun a b => ⟨_, rfl, rfl, h3 a b (by intro x hx; cases hx)⟩
    case Gt => cases h1; cases h2; exact judge fun a b => ⟨_, rfl, rfl, h3 a b (by intro x hx; cases hx)⟩
    case Le => cases h1; cases h2; exact judge fun a b => ⟨_, rfl, rfl, h3 a b (by intro x hx; cases hx)⟩
    case Ge => cases h1; cases h2; exact judge fun a b => ⟨_, rfl, rfl, h3 a b (by intro x hx; cases hx)⟩
    case Eq => cases h1; cases h2; exact judge fun a b => ⟨_, rfl, rfl, h3 a b (by intro x hx; cases hx)⟩
    case Ne => cases h1; cases h2; exact judge fun a b => ⟨_, rfl, rfl, h3 a b (by intro x hx; cases hx)⟩
    all_goals first
      | (cases h1; done)
      | (cases h1
         refine flat (fun a b => ?_) fun a b r hr => ?_
         · cases a <;> cases b <;> first | exact .inl ⟨_, rfl⟩ | (refine .inr ⟨?_, ?_⟩ <;> constructor)
         · cases a <;> cases b <;> first
             | (cases hr; done)
             | exact intResult_same hi ho hr
             | exact intResult_same hi ho (f := id) hr
             | (cases hr; first | exact .float _ | exact .str _ | exact .int _))

theorem native_unordered (name : Str) {args args' : List (Value F)} (ha : Unordered (.arr args) (.arr args')) (h : ∀ x ∈ @shownNative F name args, OneWay x)
    {s s' : St F} (hs : UnorderedSt s s') : UnorderedRun Unordered (@callNative F i name args s) (@callNative F (reordered i o) name args' s') := by
  by_cases hf : name ∈ [c!"print", c!"println", c!"format"]
  · have hall : ∀ x ∈ args, OneWay x := by
      unfold shownNative at h
      rw [if_pos hf] at h
      exact h
    rw [arr_oneWay hall ha, native_order hi ho name args h]
    have fmt : ∀ v, @nativeFormat F i args = .ok v → Unordered v v := by
      intro v hv
      unfold nativeFormat at hv
      split at hv
      · dsimp only at hv
        split at hv
        · cases hv
        · cases hv; exact .str _
      · cases hv
      · cases hv
    have same : UnorderedRes Unordered (@nativeFormat F i args) (@nativeFormat F i args) := unorderedRes_same fmt
    unfold callNative
    by_cases h1 : name = c!"println"
    · rw [if_pos h1]
      refine bind_unordered (lift_unordered same hs) fun v v' t t' hm hv ht => ?_
      have hv' : v' = v := by
        have : @nativeFormat F i args = .ok v := congrArg Prod.fst hm
        unfold nativeFormat at this
        split at this
        · dsimp only at this
          split at this
          · cases this
          · cases this; cases hv; rfl
        · cases this
        · cases this
      subst hv'
      exact ⟨.ok .null, ⟨ht.vars, ht.requests, ht.records, ht.sent, by change t'.out ++ _ ++ _ = t.out ++ _ ++ _; rw [ht.out]⟩⟩
    · rw [if_neg h1]
      by_cases h2 : name = c!"print"
      · rw [if_pos h2]
        refine bind_unordered (lift_unordered same hs) fun v v' t t' hm hv ht => ?_
        have hv' : v' = v := by
          have : @nativeFormat F i args = .ok v := congrArg Prod.fst hm
          unfold nativeFormat at this
          split at this
          · dsimp only at this
            split at this
            · cases this
            · cases this; cases hv; rfl
          · cases this
          · cases this
        subst hv'
        exact ⟨.ok .null, ⟨ht.vars, ht.requests, ht.records, ht.sent, by change t'.out ++ _ = t.out ++ _; rw [ht.out]⟩⟩
      · rw [if_neg h2]
        have h3 : name = c!"format" := by simpa [h1, h2] using hf
        rw [if_pos h3]
        exact lift_unordered same hs
  · simp only [List.mem_cons, List.not_mem_nil, or_false, not_or] at hf
    obtain ⟨h2, h1, h3⟩ := hf
    unfold callNative
    rw [if_neg h1, if_neg h1, if_neg h2, if_neg h2, if_neg h3, if_neg h3]
    by_cases h4 : name = c!"length"
    · rw [if_pos h4, if_pos h4]
      refine lift_unordered ?_ hs
      match args, args', ha with
      | [], r, ha =>
        cases ha with
        | arr hl _ =>
          cases r with
          | nil => exact .err _
          | cons => cases hl
      | [a], r, ha =>
        obtain ⟨b, r', rfl, hab, hr⟩ := arr_uncons ha
        cases hr with
        | arr hl _ =>
          cases r' with
          | cons => cases hl
          | nil =>
            cases hab with
            | null => exact .err _
            | int => exact .err _
            | float => exact .err _
            | bool => exact .err _
            | str => exact .ok (.int _)
            | arr hl hv => exact .ok (by rw [hl]; exact .int _)
            | map a b c d => exact .ok (by rw [length_unordered (.map a b c d)]; exact .int _)
      | a :: b :: l, r, ha =>
        obtain ⟨a', r', rfl, ha', hr⟩ := arr_uncons ha
        obtain ⟨b', r2, rfl, hb', hr2⟩ := arr_uncons hr
        cases hr2 with
        | arr hl _ =>
          have e : ∀ (rt : Rt F) (x y : Value F) l, @nativeLength F rt (x :: y :: l) =
              .err (c!"wrong number of arguments. got=" ++ natStr (l.length + 2) ++ c!", want=1") := fun rt x y l => by cases x <;> rfl
          rw [e, e, hl]
          exact .err _
    · rw [if_neg h4, if_neg h4]
      by_cases h5 : name = c!"append"
      · rw [if_pos h5, if_pos h5]
        refine lift_unordered ?_ hs
        cases args with
        | nil =>
          cases ha with
          | arr hl _ =>
            cases args' with
            | nil => exact .err _
            | cons => cases hl
        | cons a l =>
          obtain ⟨b, r', rfl, hab, hr⟩ := arr_uncons ha
          cases hab with
          | arr hl hv => exact .ok (arr_append (.arr hl hv) hr)
          | null => exact .err _
          | int => exact .err _
          | float => exact .err _
          | bool => exact .err _
          | str => exact .err _
          | map _ _ _ _ => exact .err _
      · rw [if_neg h5, if_neg h5]
        exact lift_unordered (.err _) hs

/-! ## Evaluation -/

section eval
variable {call call' : Call F} {shows : Str → List (Value F) → St F → List (Value F)}
  (hc : ∀ n vs vs' s s', Unordered (.arr vs) (.arr vs') → UnorderedSt s s' → (∀ x ∈ shows n vs s, OneWay x) →
    UnorderedRun Unordered (call n vs s) (call' n vs' s'))
include hc

mutual
theorem evalExpr_unordered : ∀ (e : Expr F) (s s' : St F), UnorderedSt s s' → (∀ x ∈ @shownExpr F i call shows e s, OneWay x) →
    UnorderedRun Unordered (@evalExpr F i call e s) (@evalExpr F (reordered i o) call' e s')
  | .int n, _, _, hs, _ => ⟨.ok (.int n), hs⟩
  | .float f, _, _, hs, _ => ⟨.ok (.float f), hs⟩
  | .bool b, _, _, hs, _ => ⟨.ok (.bool b), hs⟩
  | .str t, _, _, hs, _ => ⟨.ok (.str t), hs⟩
  | .ident n, s, s', hs, _ => by
    unfold evalExpr Context.get
    rcases get_unordered hs.vars n with ⟨e1, e2⟩ | ⟨a, b, e1, e2, hab⟩
    · rw [e1, e2]; exact ⟨.err _, hs⟩
    · rw [e1, e2]; exact ⟨.ok hab, hs⟩
  | .arr items, s, s', hs, h => bind_unordered (evalList_unordered items s s' hs h) fun _ _ _ _ _ ha ht => ⟨.ok ha, ht⟩
  | .map pairs, s, s', hs, h => bind_unordered (evalPairs_unordered pairs [] [] s s' hs (unordered_refl proper_empty) h) fun _ _ _ _ _ ha ht => ⟨.ok ha, ht⟩
  | .index l j, s, s', hs, h => by
    have ihl := evalExpr_unordered l
    have ihj := evalExpr_unordered j
    have hx := List.forall_mem_append.1 h
    refine bind_unordered (ihl s s' hs hx.1) fun v v' t t' hm hv ht => ?_
    have hy := List.forall_mem_append.1 (after_hold hx.2 hm)
    refine bind_unordered (ihj t t' ht hy.1) fun k k' u u' hk hkk hu => ?_
    exact lift_unordered (index_unordered hi ho hv hkk (after_hold hy.2 hk)) hu
  | .field l n, s, s', hs, h => by
    have ihl := evalExpr_unordered l
    have hx := List.forall_mem_append.1 h
    refine bind_unordered (ihl s s' hs hx.1) fun v v' t t' hm hv ht => ?_
    exact lift_unordered (field_unordered hi ho n hv (after_hold hx.2 hm)) ht
  | .letE n e, s, s', hs, h => by
    refine bind_unordered (evalExpr_unordered e s s' hs h) fun v v' t t' _ hv ht => ?_
    exact ⟨.ok hv, ⟨insert_unordered ht.vars hv n, ht.requests, ht.records, ht.sent, ht.out⟩⟩
  | .unary k e, s, s', hs, h => by
    have ihl := evalExpr_unordered e
    have hx := List.forall_mem_append.1 h
    refine bind_unordered (ihl s s' hs hx.1) fun v v' t t' hm hv ht => ?_
    exact lift_unordered (unary_unordered hi ho k hv (after_hold hx.2 hm)) ht
  | .binary k l r, s, s', hs, h => by
    have ihl := evalExpr_unordered l
    have ihr := evalExpr_unordered r
    have hx := List.forall_mem_append.1 h
    have h1 := ihl s s' hs hx.1
    rcases binary_unordered hi ho k.kind with ⟨e1, e2⟩ | ⟨p, p', e1, e2, e3⟩
    · rw [@evalExpr_lazy F (reordered i o) call' k e2, @evalExpr_lazy F i call k e1, reordered_exprDisplay i o]
      by_cases hlo : k.kind = .Lo
      · rw [if_pos hlo, if_pos hlo]
        refine bind_unordered h1 fun a a' t t' hm ha ht => ?_
        have hy := after_hold hx.2 hm
        rw [e1] at hy
        dsimp only at hy
        have ef : a'.falsy = a.falsy := falsy_unordered ha
        by_cases hf : a.falsy = true
        · rw [if_pos hf, if_pos (ef.trans hf)]
          rw [if_pos (Or.inl ⟨hlo, hf⟩)] at hy
          exact ihr t t' ht hy
        · rw [if_neg hf, if_neg (fun hh => hf (ef.symm.trans hh))]
          exact ⟨.ok ha, ht⟩
      · rw [if_neg hlo, if_neg hlo]
        by_cases hla : k.kind = .La
        · rw [if_pos hla, if_pos hla]
          refine bind_unordered h1 fun a a' t t' hm ha ht => ?_
          have hy := after_hold hx.2 hm
          rw [e1] at hy
          dsimp only at hy
          have ef : a'.falsy = a.falsy := falsy_unordered ha
          by_cases hf : a.falsy = true
          · rw [if_pos hf, if_pos (ef.trans hf)]
            exact ⟨.ok ha, ht⟩
          · rw [if_neg hf, if_neg (fun hh => hf (ef.symm.trans hh))]
            rw [if_pos (Or.inr ⟨hla, by simpa using hf⟩)] at hy
            exact ihr t t' ht hy
        · rw [if_neg hla, if_neg hla]
          exact lift_unordered (.err _) hs
    · rw [@evalExpr_strict F (reordered i o) call' k p' e2, @evalExpr_strict F i call k p e1]
      refine bind_unordered h1 fun a a' t t' hm ha ht => ?_
      have hy := after_hold hx.2 hm
      rw [e1] at hy
      dsimp only at hy
      have hz := List.forall_mem_append.1 hy
      refine bind_unordered (ihr t t' ht hz.1) fun b b' u u' hb hbb hu => ?_
      exact lift_unordered (e3 a b a' b' ha hbb (after_hold hz.2 hb)) hu
  | .paren e, s, s', hs, h => evalExpr_unordered e s s' hs h
  | .ifE c t e, s, s', hs, h => by
    have ihc := evalExpr_unordered c
    have iht := evalBlock_unordered t
    have ihe := evalBlock_unordered e
    have hx := List.forall_mem_append.1 h
    refine bind_unordered (ihc s s' hs hx.1) fun v v' u u' hm hv hu => ?_
    have hy := after_hold hx.2 hm
    have ef : v'.falsy = v.falsy := falsy_unordered hv
    by_cases hf : v.falsy = true
    · rw [if_pos hf, if_pos (ef.trans hf)]
      rw [if_pos hf] at hy
      exact ihe .null .null u u' hu .null hy
    · rw [if_neg hf, if_neg (fun hh => hf (ef.symm.trans hh))]
      rw [if_neg hf] at hy
      exact iht .null .null u u' hu .null hy
  | .call f args, s, s', hs, h => by
    have iha := evalList_unordered args
    have hx := List.forall_mem_append.1 h
    exact bind_unordered (iha s s' hs hx.1) fun v v' u u' hm hv hu => hc f v v' u u' hv hu (after_hold hx.2 hm)
theorem evalList_unordered : ∀ (l : List (Expr F)) (s s' : St F), UnorderedSt s s' → (∀ x ∈ @shownList F i call shows l s, OneWay x) →
    UnorderedRun (fun a b => Unordered (.arr a) (.arr b)) (@evalList F i call l s) (@evalList F (reordered i o) call' l s')
  | [], _, _, hs, _ => ⟨.ok arr_nil, hs⟩
  | e :: l, s, s', hs, h => by
    have ih1 := evalExpr_unordered e
    have ih2 := evalList_unordered l
    have hx := List.forall_mem_append.1 h
    refine bind_unordered (ih1 s s' hs hx.1) fun v v' u u' hm hv hu => ?_
    have hy := after_hold hx.2 hm
    exact bind_unordered (ih2 u u' hu hy) fun _ _ _ _ _ ha ht => ⟨.ok (arr_cons hv ha), ht⟩
theorem evalPairs_unordered : ∀ (l : List (Expr F × Expr F)) (acc acc' : List (Str × Value F)) (s s' : St F), UnorderedSt s s' →
    Unordered (.map acc) (.map acc') → (∀ x ∈ @shownPairs F i call shows l s, OneWay x) →
    UnorderedRun (fun a b => Unordered (.map a) (.map b)) (@evalPairs F i call acc l s) (@evalPairs F (reordered i o) call' acc' l s')
  | [], _, _, _, _, hs, hacc, _ => ⟨.ok hacc, hs⟩
  | (k, v) :: l, acc, acc', s, s', hs, hacc, h => by
    have ih1 := evalExpr_unordered k
    have ih2 := evalExpr_unordered v
    have ih3 := evalPairs_unordered l
    have hx := List.forall_mem_append.1 h
    refine bind_unordered (ih1 s s' hs hx.1) fun a a' u u' hm ha hu => ?_
    have hy := List.forall_mem_cons.1 (after_hold hx.2 hm)
    have hz := List.forall_mem_append.1 hy.2
    refine bind_unordered (ih2 u u' hu hz.1) fun b b' w w' hm2 hb hw => ?_
    rw [unordered_oneWay hy.1 ha, oneWay_display hi ho hy.1]
    have hv2 := after_hold hz.2 hm2
    exact ih3 _ _ w w' hw (insert_unordered hacc hb _) hv2
theorem evalBlock_unordered : ∀ (l : List (Expr F)) (acc acc' : Value F) (s s' : St F), UnorderedSt s s' → Unordered acc acc' →
    (∀ x ∈ @shownBlock F i call shows l s, OneWay x) →
    UnorderedRun Unordered (@evalBlock F i call acc l s) (@evalBlock F (reordered i o) call' acc' l s')
  | [], _, _, _, _, hs, hacc, _ => ⟨.ok hacc, hs⟩
  | e :: l, acc, acc', s, s', hs, hacc, h => by
    have ih1 := evalExpr_unordered e
    have ih2 := evalBlock_unordered l
    have hx := List.forall_mem_append.1 h
    refine bind_unordered (ih1 s s' hs hx.1) fun v v' u u' hm hv hu => ?_
    have hy := after_hold hx.2 hm
    exact ih2 v v' u u' hu hv hy
end

omit hi ho hc in
theorem orElse_unordered {m m' : M F (Value F)} {s s' : St F} (h : UnorderedRun Unordered (m s) (m' s')) :
    UnorderedRun Unordered ((m.orElse .null) s) ((m'.orElse .null) s') := by
  unfold M.orElse
  obtain ⟨h1, h2⟩ := h
  cases hm : m s with
  | mk r t =>
    cases hm' : m' s' with
    | mk r' t' =>
      rw [hm, hm'] at h1 h2
      dsimp only at h1 h2
      cases h1 with
      | ok h => exact ⟨.ok h, h2⟩
      | err e => exact ⟨.ok .null, h2⟩
      | panic => exact ⟨.panic, h2⟩
      | hang => exact ⟨.hang, h2⟩

theorem evalAsserts_unordered : ∀ (l : List (Expr F)) (s s' : St F), UnorderedSt s s' → (∀ x ∈ @shownAsserts F i call shows l s, OneWay x) →
    UnorderedRun Eq (@evalAsserts F i call l s) (@evalAsserts F (reordered i o) call' l s')
  | [], _, _, hs, _ => ⟨.ok rfl, hs⟩
  | .binary k l r :: rest, s, s', hs, h => by
    have ih := evalAsserts_unordered rest
    have hx := List.forall_mem_append.1 h
    refine bind_unordered (orElse_unordered (evalExpr_unordered hi ho hc l s s' hs hx.1)) fun a a' t t' hm ha ht => ?_
    have hy := List.forall_mem_append.1 (after_hold hx.2 hm)
    refine bind_unordered (orElse_unordered (evalExpr_unordered hi ho hc r t t' ht hy.1)) fun b b' u u' hb hbb hu => ?_
    have hz := List.forall_mem_append.1 (after_hold hy.2 hb)
    refine bind_unordered (ih u u' hu hz.2) fun as as' w w' _ has hw => ?_
    subst has
    have hw1 := hz.1
    rw [reordered_compare i o, reordered_exprDisplay i o, @compare_unordered F i k.kind a b a' b' ha hbb]
    cases hcmp : @compareValues F i k.kind a b with
    | none => exact ⟨.ok rfl, hw⟩
    | some q =>
      rw [hcmp] at hw1
      have oa := hw1 a List.mem_cons_self
      have ob := hw1 b (List.mem_cons_of_mem _ List.mem_cons_self)
      rw [unordered_oneWay oa ha, unordered_oneWay ob hbb, oneWay_display hi ho oa, oneWay_display hi ho ob]
      exact ⟨.ok rfl, hw⟩
  | .int _ :: rest, s, s', hs, h => evalAsserts_unordered rest s s' hs h
  | .float _ :: rest, s, s', hs, h => evalAsserts_unordered rest s s' hs h
  | .bool _ :: rest, s, s', hs, h => evalAsserts_unordered rest s s' hs h
  | .str _ :: rest, s, s', hs, h => evalAsserts_unordered rest s s' hs h
  | .ident _ :: rest, s, s', hs, h => evalAsserts_unordered rest s s' hs h
  | .arr _ :: rest, s, s', hs, h => evalAsserts_unordered rest s s' hs h
  | .map _ :: rest, s, s', hs, h => evalAsserts_unordered rest s s' hs h
  | .index _ _ :: rest, s, s', hs, h => evalAsserts_unordered rest s s' hs h
  | .field _ _ :: rest, s, s', hs, h => evalAsserts_unordered rest s s' hs h
  | .letE _ _ :: rest, s, s', hs, h => evalAsserts_unordered rest s s' hs h
  | .unary _ _ :: rest, s, s', hs, h => evalAsserts_unordered rest s s' hs h
  | .paren _ :: rest, s, s', hs, h => evalAsserts_unordered rest s s' hs h
  | .ifE _ _ _ :: rest, s, s', hs, h => evalAsserts_unordered rest s s' hs h
  | .call _ _ :: rest, s, s', hs, h => evalAsserts_unordered rest s s' hs h

end eval

end

end Am
