import Verif.Props.AnyOrder
/-!
# What holds whatever the order of hash maps: C127
-/
set_option linter.unusedSimpArgs false
set_option linter.unusedSectionVars false
namespace Am
open Spec
variable {F : Type} [Rt F]

/-! ## Induction over the possible runs -/

/-- Every possible outcome of `m` relates the states before and after by `R n`. -/
def AnyObeys (R : Nat → Out → St F → St F → Prop) {α : Type} (n : Nat) (m : AnyM F α) : Prop := ∀ s x, m s x → R n x.1.out s x.2

theorem anyError_out {α : Type} {x r : Res α} {P : Str → Prop} (h : anyError x P r) : r.out = x.out := by
  cases x with
  | err e =>
    obtain ⟨e', _, h2⟩ := h
    rw [h2]
    rfl
  | _ => rw [h]

theorem out_fine {α : Type} {x : Res α} (h : x ≠ .hang ∧ x ≠ .panic) : x.out = .fine := by
  cases x with
  | ok a => rfl
  | err e => rfl
  | panic => exact absurd rfl h.2
  | hang => exact absurd rfl h.1

theorem anyIndex_fine {v k : Value F} {r : Res (Value F)} (h : anyIndex v k r) : r.out = .fine := by
  have key : anyError (indexValue v k) (fun e => ∃ t, DebuggedAs v t ∧ e = c!"index operator not support: " ++ t) r → r.out = .fine :=
    fun h => (anyError_out h).trans (out_fine (indexValue_fine v k))
  cases v with
  | map pairs =>
    obtain ⟨t, _, h2⟩ := h
    rw [h2]
    rfl
  | _ => exact key h

theorem anyFormat_fine {args : List (Value F)} {r : Res (Value F)} (h : anyFormat args r) : r.out = .fine := by
  cases args with
  | nil => rw [h]; rfl
  | cons v l => cases v with
    | str f =>
      unfold anyFormat at h
      dsimp only at h
      split at h
      · rw [h]
        exact out_fine (nativeFormat_fine _)
      · obtain ⟨ts, _, h2⟩ := h
        rw [h2]
        rfl
    | _ => rw [h]; rfl

section induction
variable {R : Nat → Out → St F → St F → Prop} (g : Grade R)
include g

theorem AnyObeys.bind {α β : Type} {m n : Nat} {x : AnyM F α} {f : α → AnyM F β} (hx : AnyObeys R m x) (hf : ∀ a, AnyObeys R n (f a)) :
    AnyObeys R (m + n) (.bind x f) := by
  rintro s z ⟨⟨r, t⟩, h1, h2⟩
  have h3 := hx s _ h1
  cases r with
  | ok a => exact g.comp h3 (hf a t z h2)
  | _ => cases h2; exact g.mono (Nat.le_add_right _ _) h3

theorem AnyObeys.det {α : Type} {n : Nat} {m : M F α} (h : Obeys R n m) : AnyObeys R n (.det m) := by
  rintro s x hx
  cases hx
  exact h s

theorem AnyObeys.pure {α : Type} (a : α) : AnyObeys R 0 (.det (M.pure a)) := AnyObeys.det g fun s => g.refl s

theorem AnyObeys.lift {α : Type} {P : Res α → Prop} (h : ∀ r, P r → r.out = .fine ∨ r.out = .panic ∧ ∀ s, R 0 .panic s s) : AnyObeys R 0 (.lift P) := by
  rintro s ⟨r, t⟩ ⟨h1, h2⟩
  cases h2
  rcases h r h1 with h3 | ⟨h3, h4⟩
  · change R 0 r.out t t
    rw [h3]
    exact g.refl t
  · change R 0 r.out t t
    rw [h3]
    exact h4 t

theorem AnyObeys.text {α : Type} {P : α → Prop} : AnyObeys R 0 (.text P) := by
  rintro s x ⟨a, _, h⟩
  cases h
  exact g.refl s

theorem AnyObeys.mono {α : Type} {m n : Nat} {x : AnyM F α} (h : m ≤ n) (hx : AnyObeys R m x) : AnyObeys R n x := fun s z hz => g.mono h (hx s z hz)

theorem AnyObeys.orElse {α : Type} {n : Nat} {x : AnyM F α} {d : α} (hx : AnyObeys R n x) : AnyObeys R n (.orElse x d) := by
  rintro s z ⟨⟨r, t⟩, h1, h2⟩
  have h3 := hx s _ h1
  cases r <;> (cases h2; exact h3)

theorem panic_or {α : Type} {x r : Res α} (hx : x ≠ .hang) (ho : (∀ s, R 0 .panic s s) ∨ x ≠ .panic) (hr : r.out = x.out) :
    r.out = .fine ∨ r.out = .panic ∧ ∀ s, R 0 .panic s s := by
  rw [hr]
  cases x with
  | ok a => exact Or.inl rfl
  | err e => exact Or.inl rfl
  | panic => exact Or.inr ⟨rfl, ho.resolve_right fun h => h rfl⟩
  | hang => exact absurd rfl hx

variable {call : AnyCall F} (hcall : ∀ f vs, AnyObeys R 1 (call f vs))
include hcall

mutual
theorem anyExpr_obeys : ∀ (e : Expr F), (∀ n ∈ lets e, ∀ v, Obeys R 0 (writeVar n v)) → (∀ o ∈ ops e, (∀ s, R 0 .panic s s) ∨ Harmless F o) →
    AnyObeys R (calls e) (anyExpr call e)
  | .int _, _, _ => AnyObeys.pure g _
  | .float _, _, _ => AnyObeys.pure g _
  | .bool _, _, _ => AnyObeys.pure g _
  | .str _, _, _ => AnyObeys.pure g _
  | .arr items, hl, ho => AnyObeys.bind g (n := 0) (anyList_obeys items hl ho) fun _ => AnyObeys.pure g _
  | .map pairs, hl, ho => AnyObeys.bind g (n := 0) (anyPairs_obeys pairs [] hl ho) fun _ => AnyObeys.pure g _
  | .index l j, hl, ho => by
    have ihl := anyExpr_obeys l (fun n h => hl n (List.mem_append_left _ h)) (fun n h => ho n (List.mem_append_left _ h))
    have ihj := anyExpr_obeys j (fun n h => hl n (List.mem_append_right _ h)) (fun n h => ho n (List.mem_append_right _ h))
    exact AnyObeys.bind g ihl fun v => AnyObeys.bind g (n := 0) ihj fun k => AnyObeys.lift g fun r hr => Or.inl (anyIndex_fine hr)
  | .field l n, hl, ho => AnyObeys.bind g (n := 0) (anyExpr_obeys l hl ho) fun v =>
      AnyObeys.lift g fun r hr => Or.inl ((anyError_out hr).trans (out_fine (fieldValue_fine v n)))
  | .ident n, _, _ => AnyObeys.det g fun s => by
    have h := g.closed.ident n s
    exact h
  | .letE n e, hl, ho => AnyObeys.bind g (n := 0) (anyExpr_obeys e (fun m h => hl m (List.mem_cons_of_mem _ h)) ho) fun v =>
      AnyObeys.bind g (m := 0) (n := 0) (AnyObeys.det g (hl n (List.mem_cons_self ..) v)) fun _ => AnyObeys.pure g _
  | .unary t e, hl, ho => AnyObeys.bind g (n := 0) (anyExpr_obeys e hl (fun n h => ho n (List.mem_cons_of_mem _ h))) fun v =>
      AnyObeys.lift g fun r hr => panic_or g (unaryValue_not_hang t v) ((ho _ (List.mem_cons_self ..)).imp id fun h => h t v rfl) (anyError_out hr)
  | .binary t l r, hl, ho => by
    have ihl := anyExpr_obeys l (fun n h => hl n (List.mem_append_left _ h)) (fun n h => ho n (List.mem_cons_of_mem _ (List.mem_append_left _ h)))
    have ihr := anyExpr_obeys r (fun n h => hl n (List.mem_append_right _ h)) (fun n h => ho n (List.mem_cons_of_mem _ (List.mem_append_right _ h)))
    simp only [anyExpr, calls]
    split
    · rename_i op hop
      exact AnyObeys.bind g ihl fun a => AnyObeys.bind g (n := 0) ihr fun b => AnyObeys.lift g fun x hx =>
        panic_or g (binaryOp_not_hang hop a b) ((ho _ (List.mem_cons_self ..)).imp id fun h => h op hop a b) (anyError_out hx)
    · split
      · refine AnyObeys.bind g ihl fun a => ?_
        split
        · exact ihr
        · exact AnyObeys.mono g (Nat.zero_le _) (AnyObeys.pure g _)
      · split
        · refine AnyObeys.bind g ihl fun a => ?_
          split
          · exact AnyObeys.mono g (Nat.zero_le _) (AnyObeys.pure g _)
          · exact ihr
        · exact AnyObeys.mono g (Nat.zero_le _) (AnyObeys.det g fun s => g.refl s)
  | .paren e, hl, ho => anyExpr_obeys e hl ho
  | .ifE c t e, hl, ho => by
    have ihc := anyExpr_obeys c (fun n h => hl n (List.mem_append_left _ (List.mem_append_left _ h))) (fun n h => ho n (List.mem_append_left _ (List.mem_append_left _ h)))
    have iht := anyBlock_obeys t .null (fun n h => hl n (List.mem_append_left _ (List.mem_append_right _ h))) (fun n h => ho n (List.mem_append_left _ (List.mem_append_right _ h)))
    have ihe := anyBlock_obeys e .null (fun n h => hl n (List.mem_append_right _ h)) (fun n h => ho n (List.mem_append_right _ h))
    refine AnyObeys.bind g (n := callsList t + callsList e) ihc fun v => ?_
    split
    · exact AnyObeys.mono g (by omega) ihe
    · exact AnyObeys.mono g (by omega) iht
  | .call f args, hl, ho => AnyObeys.bind g (anyList_obeys args hl ho) fun vs => hcall f vs
theorem anyList_obeys : ∀ (l : List (Expr F)), (∀ n ∈ letsList l, ∀ v, Obeys R 0 (writeVar n v)) → (∀ o ∈ opsList l, (∀ s, R 0 .panic s s) ∨ Harmless F o) →
    AnyObeys R (callsList l) (anyList call l)
  | [], _, _ => AnyObeys.pure g _
  | e :: l, hl, ho => by
    have ih1 := anyExpr_obeys e (fun n h => hl n (List.mem_append_left _ h)) (fun n h => ho n (List.mem_append_left _ h))
    have ih2 := anyList_obeys l (fun n h => hl n (List.mem_append_right _ h)) (fun n h => ho n (List.mem_append_right _ h))
    exact AnyObeys.bind g ih1 fun v => AnyObeys.bind g (n := 0) ih2 fun vs => AnyObeys.pure g _
theorem anyPairs_obeys : ∀ (l : List (Expr F × Expr F)) (acc : List (Str × Value F)), (∀ n ∈ letsPairs l, ∀ v, Obeys R 0 (writeVar n v)) →
    (∀ o ∈ opsPairs l, (∀ s, R 0 .panic s s) ∨ Harmless F o) → AnyObeys R (callsPairs l) (anyPairs call acc l)
  | [], _, _, _ => AnyObeys.pure g _
  | (k, v) :: l, acc, hl, ho => by
    have ih1 := anyExpr_obeys k (fun n h => hl n (List.mem_append_left _ (List.mem_append_left _ h))) (fun n h => ho n (List.mem_append_left _ (List.mem_append_left _ h)))
    have ih2 := anyExpr_obeys v (fun n h => hl n (List.mem_append_left _ (List.mem_append_right _ h))) (fun n h => ho n (List.mem_append_left _ (List.mem_append_right _ h)))
    have ih3 := fun acc => anyPairs_obeys l acc (fun n h => hl n (List.mem_append_right _ h)) (fun n h => ho n (List.mem_append_right _ h))
    refine AnyObeys.bind g (n := calls v + callsPairs l) ih1 fun a => AnyObeys.bind g ih2 fun b => ?_
    exact AnyObeys.mono g (Nat.le_of_eq (Nat.zero_add _)) (AnyObeys.bind g (AnyObeys.text g) fun t => ih3 _)
theorem anyBlock_obeys : ∀ (l : List (Expr F)) (acc : Value F), (∀ n ∈ letsList l, ∀ v, Obeys R 0 (writeVar n v)) →
    (∀ o ∈ opsList l, (∀ s, R 0 .panic s s) ∨ Harmless F o) → AnyObeys R (callsList l) (anyBlock call acc l)
  | [], _, _, _ => AnyObeys.pure g _
  | e :: l, acc, hl, ho => by
    have ih1 := anyExpr_obeys e (fun n h => hl n (List.mem_append_left _ h)) (fun n h => ho n (List.mem_append_left _ h))
    have ih2 := fun acc => anyBlock_obeys l acc (fun n h => hl n (List.mem_append_right _ h)) (fun n h => ho n (List.mem_append_right _ h))
    exact AnyObeys.bind g ih1 fun v => ih2 v
end

theorem anyAsserts_obeys (l : List (Expr F)) (hl : ∀ n ∈ letsList l, ∀ v, Obeys R 0 (writeVar n v)) (ho : ∀ o ∈ opsList l, (∀ s, R 0 .panic s s) ∨ Harmless F o) :
    AnyObeys R (callsList l) (anyAsserts call l) := by
  induction l with
  | nil => exact AnyObeys.pure g _
  | cons e rest ih =>
    have ih := ih (fun n h => hl n (List.mem_append_right _ h)) (fun n h => ho n (List.mem_append_right _ h))
    cases e with
    | binary t l r =>
      have ihl := anyExpr_obeys g hcall l (fun n h => hl n (List.mem_append_left _ (List.mem_append_left _ h)))
        (fun n h => ho n (List.mem_append_left _ (List.mem_cons_of_mem _ (List.mem_append_left _ h))))
      have ihr := anyExpr_obeys g hcall r (fun n h => hl n (List.mem_append_left _ (List.mem_append_right _ h)))
        (fun n h => ho n (List.mem_append_left _ (List.mem_cons_of_mem _ (List.mem_append_right _ h))))
      simp only [anyAsserts, callsList, calls, Nat.add_assoc]
      refine AnyObeys.bind g (AnyObeys.orElse g ihl) fun a => AnyObeys.bind g (AnyObeys.orElse g ihr) fun b => AnyObeys.bind g (n := 0) ih fun as => ?_
      split
      · exact AnyObeys.bind g (m := 0) (n := 0) (AnyObeys.text g) fun x => AnyObeys.bind g (m := 0) (n := 0) (AnyObeys.text g) fun y => AnyObeys.pure g _
      · exact AnyObeys.pure g _
    | _ => exact AnyObeys.mono g (Nat.le_add_left _ _) ih

end induction

theorem anyNative_obeys {R : Nat → Out → St F → St F → Prop} (g : Grade R) (hout : ∀ t : Str, Obeys R 0 (M.modify fun s : St F => { s with out := s.out ++ t }))
    (name : Str) (args : List (Value F)) : AnyObeys R 0 (anyNative name args) := by
  unfold anyNative
  split
  · refine AnyObeys.bind g (m := 0) (n := 0) (AnyObeys.lift g fun r hr => Or.inl (anyFormat_fine hr)) fun v =>
      AnyObeys.bind g (m := 0) (n := 0) (AnyObeys.det g fun s => ?_) fun _ => AnyObeys.pure g _
    have := hout (v.display ++ c!"\n") s
    simpa [M.modify, List.append_assoc] using this
  · split
    · exact AnyObeys.bind g (m := 0) (n := 0) (AnyObeys.lift g fun r hr => Or.inl (anyFormat_fine hr)) fun v =>
        AnyObeys.bind g (m := 0) (n := 0) (AnyObeys.det g (hout _)) fun _ => AnyObeys.pure g _
    · split
      · exact AnyObeys.lift g fun r hr => Or.inl (anyFormat_fine hr)
      · exact AnyObeys.det g (callNative_closed (P := fun {_} n m _ => Obeys R n m) g.closed hout name args)

/-! ## Requests -/

/-- Without requests nothing is sent and evaluation ends. -/
def localGrade (_ : Nat) (o : Out) (a b : St F) : Prop := a.ctx.requests = [] → b.ctx.requests = [] ∧ b.sent = a.sent ∧ o ≠ .hang

theorem local_grade : Grade (F := F) localGrade where
  refl s h := ⟨h, rfl, by simp⟩
  comp h1 h2 h := ⟨(h2 (h1 h).1).1, (h2 (h1 h).1).2.1.trans (h1 h).2.1, (h2 (h1 h).1).2.2⟩
  mono _ h := h

theorem anyCall_local {R : Nat → Out → St F → St F → Prop} (g : Grade R) (hout : ∀ t : Str, Obeys R 0 (M.modify fun s : St F => { s with out := s.out ++ t }))
    (hR : ∀ n o a b, (a.ctx.requests = [] → R n o a b) → R n o a b) (net : Net) (name : Str) (args : List (Value F)) : AnyObeys R 1 (anyCallAt net 0 name args) := by
  intro s x hx
  refine hR _ _ _ _ fun hs => ?_
  unfold anyCallAt at hx
  have e : s.ctx.request name = none := by unfold Context.request; rw [hs]; rfl
  rw [e] at hx
  exact g.mono (Nat.zero_le _) (anyNative_obeys g hout name args s x hx)

theorem anyAsserts_local (net : Net) (l : List (Expr F)) : AnyObeys localGrade (callsList l) (anyAsserts (anyCallAt net 0) l) :=
  anyAsserts_obeys local_grade (anyCall_local local_grade (fun _ _ h => ⟨h, rfl, by simp [M.modify, Res.out]⟩) (fun _ _ _ _ h hs => h hs hs) net) l
    (fun _ _ _ _ h => ⟨h, rfl, by simp [writeVar, M.modify, Res.out]⟩) (fun _ _ => Or.inl fun _ h => ⟨h, rfl, by simp⟩)

theorem anyBind_noErr {α β : Type} {m : AnyM F α} {f : α → AnyM F β} (hm : ∀ s e t, ¬ m s (.err e, t)) (hf : ∀ a s e t, ¬ f a s (.err e, t)) :
    ∀ s e t, ¬ (AnyM.bind m f) s (.err e, t) := by
  rintro s e t ⟨⟨r, u⟩, h1, h2⟩
  cases r with
  | ok a => exact hf a u e t h2
  | err e => exact hm s e u h1
  | panic => cases h2
  | hang => cases h2

theorem anyOrElse_noErr {α : Type} (m : AnyM F α) (d : α) : ∀ s e t, ¬ (AnyM.orElse m d) s (.err e, t) := by
  rintro s e t ⟨⟨r, u⟩, h1, h2⟩
  cases r <;> cases h2

theorem anyAsserts_noErr (call : AnyCall F) : ∀ (l : List (Expr F)) (s : St F) (e : Str) (t : St F), ¬ anyAsserts call l s (.err e, t) := by
  intro l
  induction l with
  | nil => intro s e t h; cases h
  | cons x l ih =>
    cases x with
    | binary k a b =>
      simp only [anyAsserts]
      refine anyBind_noErr (anyOrElse_noErr _ _) fun a => anyBind_noErr (anyOrElse_noErr _ _) fun b => anyBind_noErr ih fun as => ?_
      cases compareValues k.kind a b with
      | some result =>
        refine anyBind_noErr ?_ fun x => anyBind_noErr ?_ fun y => ?_
        · rintro s e t ⟨_, _, h⟩; cases h
        · rintro s e t ⟨_, _, h⟩; cases h
        · intro s e t h; cases h
      | none => intro s e t h; cases h
    | _ => exact ih

theorem anyMap_out {r : Response} {x : Res (List (Str × Value F))} (h : r.anyMap x) : x.out = (r.toMap (F := F)).out ∧ ∀ e, x ≠ .err e := by
  unfold Response.anyMap at h
  split at h
  · rename_i e _ _ _ hp
    obtain ⟨v, _, h2⟩ := h
    rw [h2]
    unfold Response.toMap
    rw [hp]
    exact ⟨rfl, fun e h => by cases h⟩
  · rw [h]
    exact ⟨rfl, fun e => toMap_not_err _ _⟩

/-- The possible outcomes of a call that names a request. -/
theorem anyRequest_cases {net : Net} {name message : Str} {asserts : List (Expr F)} {s : St F} {x : Res (Value F) × St F}
    (h : anyRequest net (anyCallAt net 0) name message asserts s x) : ∃ text, anyRender s.ctx message text ∧
    ((∃ rq rs t e as inner out, send net s.sent text = .ok (rq, rs, t, e) ∧
      x = (.ok (.map inner), ⟨s.ctx.push ⟨name, t, rq, rs, as, e⟩, s.sent ++ [text], out⟩)) ∨
    (x = (.hang, ⟨s.ctx, s.sent ++ [text], s.out⟩) ∧ ∃ rq rs t e, send net s.sent text = .ok (rq, rs, t, e) ∧ (parse rs.body : Res (Source F)) = .hang) ∨
    (∃ out, x = (.panic, ⟨s.ctx, s.sent ++ [text], out⟩) ∧ (send net s.sent text = .panic ∨
      ∃ map t, anyAsserts (anyCallAt net 0) asserts ⟨Context.ofMap map, s.sent ++ [text], s.out⟩ (.panic, t)))) := by
  obtain ⟨_, rfl, _, ⟨text, ht, rfl⟩, _, rfl, ⟨r, u⟩, hs, h⟩ := h
  have e1 : r = send net s.sent text := congrArg Prod.fst hs
  have e2 : u = { s with sent := s.sent ++ [text] } := congrArg Prod.snd hs
  subst e2
  refine ⟨text, ht, ?_⟩
  cases r with
  | err e => exact absurd e1.symm (send_not_err _ _ _ _)
  | hang => exact absurd e1.symm (send_not_hang _ _ _)
  | panic => exact Or.inr (Or.inr ⟨_, h, Or.inl e1.symm⟩)
  | ok p =>
    obtain ⟨rq, rs, t, e⟩ := p
    obtain ⟨⟨m, w⟩, ⟨hm, hw⟩, h⟩ := h
    change w = _ at hw
    subst hw
    have hmo := anyMap_out (F := F) hm
    cases m with
    | err e => exact absurd rfl (hmo.2 e)
    | panic =>
      exfalso
      have := hmo.1
      cases ho : rs.toMap (F := F) with
      | panic => exact toMap_not_panic _ ho
      | _ => rw [ho] at this; cases this
    | hang =>
      refine Or.inr (Or.inl ⟨h, rq, rs, t, e, e1.symm, ?_⟩)
      have := hmo.1
      cases ho : rs.toMap (F := F) with
      | hang => exact toMap_hang ho
      | _ => rw [ho] at this; cases this
    | ok map =>
      obtain ⟨⟨q, v⟩, ⟨⟨a, z⟩, ha, hq⟩, h⟩ := h
      have hlocal := anyAsserts_local net asserts _ _ ha rfl
      cases a with
      | ok as =>
        cases hq
        obtain ⟨_, rfl, h⟩ := h
        refine Or.inl ⟨rq, rs, t, e, as, z.ctx.inner, z.out, e1.symm, ?_⟩
        have hz : z.sent = s.sent ++ [text] := hlocal.2.1
        rw [show x = _ from h]
        dsimp only [M.modify, M.pure]
        rw [hz]
      | err e => exact absurd ha (anyAsserts_noErr _ _ _ _ _)
      | hang => exact absurd rfl hlocal.2.2
      | panic =>
        cases hq
        refine Or.inr (Or.inr ⟨z.out, ?_, Or.inr ⟨map, z, ha⟩⟩)
        have hz : z.sent = s.sent ++ [text] := hlocal.2.1
        rw [show x = _ from h]
        dsimp only
        rw [hz]

theorem anyCall_obeys {R : Nat → Out → St F → St F → Prop} (g : Grade R) (hout : ∀ t : Str, Obeys R 0 (M.modify fun s : St F => { s with out := s.out ++ t })) (net : Net)
    (hreq : ∀ name message asserts s x, s.ctx.request name = some (message, asserts) → anyRequest net (anyCallAt net 0) name message asserts s x → R 1 x.1.out s x.2)
    (name : Str) (args : List (Value F)) : AnyObeys R 1 (anyCallAt net 1 name args) := by
  intro s x hx
  unfold anyCallAt at hx
  cases hr : s.ctx.request name with
  | none =>
    rw [hr] at hx
    exact g.mono (Nat.zero_le _) (anyNative_obeys g hout name args s x hx)
  | some p =>
    rw [hr] at hx
    exact hreq name p.1 p.2 s x hr hx

/-! ## C127 -/

theorem anyRun_sent (net : Net) (block : List (Expr F)) : AnyObeys (sentGrade net) (callsList block) (anyRun net block) :=
  anyBlock_obeys (sentGrade_grade net) (anyCall_obeys (sentGrade_grade net) (fun t s => ⟨fun _ h => (by cases h), [], by simp [M.modify]⟩) net
    (fun name message asserts s x _ hx => by
      obtain ⟨text, _, ⟨rq, rs, t, e, as, inner, out, h1, h2⟩ | ⟨h2, rq, rs, t, e, h1, h3⟩ | ⟨out, h2, _⟩⟩ := anyRequest_cases hx
      · rw [h2]; exact ⟨fun _ h => (by cases h), [text], rfl, by simp⟩
      · rw [h2]; exact ⟨fun hb => absurd h3 (hb _ _ _ _ _ _ h1), [text], rfl, by simp⟩
      · rw [h2]; exact ⟨fun _ h => (by cases h), [text], rfl, by simp⟩))
    block .null (fun n _ v => sentGrade_write net n v) (fun _ _ => Or.inl fun s => ⟨fun _ h => (by cases h), [], by simp⟩)

/-- C127: whatever the order of hash maps, evaluation ends if every body received can be parsed in finite time. -/
theorem c127_terminates {net : Net} {block : List (Expr F)} {s : St F} {x : Res (Value F) × St F} (hb : BodiesParse F net) (h : anyRun net block s x) : x.1 ≠ .hang := by
  have := (anyRun_sent net block s x h).1 hb
  intro hx
  rw [hx] at this
  exact this rfl

/-- C127: it sends at most as many requests as there are calls written in the block. -/
theorem c127_bounded {net : Net} {block : List (Expr F)} {s : St F} {x : Res (Value F) × St F} (h : anyRun net block s x) :
    ∃ more, x.2.sent = s.sent ++ more ∧ more.length ≤ callsList block := (anyRun_sent net block s x h).2

/-- C127: variables without a `let` keep their values, and the table of requests is unchanged. -/
theorem c127_frame {net : Net} {block : List (Expr F)} {s : St F} {x : Res (Value F) × St F} (h : anyRun net block s x) :
    (∀ n, n ∉ letsList block → x.2.ctx.get n = s.ctx.get n) ∧ x.2.ctx.requests = s.ctx.requests := by
  have hreq : ∀ name message asserts (s : St F) x, anyRequest net (anyCallAt net 0) name message asserts s x →
      (∀ n, x.2.ctx.get n = s.ctx.get n) ∧ x.2.ctx.requests = s.ctx.requests := by
    intro name message asserts s x hx
    obtain ⟨text, _, ⟨rq, rs, t, e, as, inner, out, h1, h2⟩ | ⟨h2, _⟩ | ⟨out, h2, _⟩⟩ := anyRequest_cases hx <;> (rw [h2]; exact ⟨fun _ => rfl, rfl⟩)
  refine ⟨fun n hn => ?_, ?_⟩
  · exact anyBlock_obeys (frame_grade n) (anyCall_obeys (frame_grade n) (fun _ _ => rfl) net fun name message asserts s x _ hx => (hreq name message asserts s x hx).1 n)
      block .null (fun m hm v => frame_write (fun (e : m = n) => hn (e ▸ hm)) v) (fun _ _ => Or.inl fun _ => rfl) s x h
  · exact anyBlock_obeys table_grade (anyCall_obeys table_grade (fun _ _ => rfl) net fun name message asserts s x _ hx => (hreq name message asserts s x hx).2)
      block .null (fun m hm v s => rfl) (fun _ _ => Or.inl fun _ => rfl) s x h

/-- `rec` is the record of sending `m`, the message of a known request with its placeholders replaced by texts of the variables in some order of maps. -/
def AnyRecordOf (net : Net) (table : List (Str × (Str × List (Expr F)))) (before : List Str) (m : Str) (rec : Record) : Prop :=
  ∃ template asserts, amGet rec.name table = some (template, asserts) ∧
    (∃ ctx : Context F, ctx.requests = table ∧ anyRender ctx template m) ∧
    send net before m = .ok (rec.request, rec.response, rec.time, rec.error)

/-- The records belong, one for one and in order, to the messages, which were sent after `before`. -/
inductive AnyRecordsOf (net : Net) (table : List (Str × (Str × List (Expr F)))) : List Str → List Str → List Record → Prop
  | nil (before : List Str) : AnyRecordsOf net table before [] []
  | cons {before : List Str} {m : Str} {rec : Record} {ms : List Str} {rs : List Record} :
      AnyRecordOf net table before m rec → AnyRecordsOf net table (before ++ [m]) ms rs → AnyRecordsOf net table before (m :: ms) (rec :: rs)

theorem AnyRecordsOf.append {net : Net} {table : List (Str × (Str × List (Expr F)))} {b m1 m2 : List Str} {r1 r2 : List Record}
    (h1 : AnyRecordsOf net table b m1 r1) (h2 : AnyRecordsOf net table (b ++ m1) m2 r2) : AnyRecordsOf net table b (m1 ++ m2) (r1 ++ r2) := by
  induction h1 with
  | nil b => simpa using h2
  | cons h _ ih => exact .cons h (ih (by simpa [List.append_assoc] using h2))

def anyRecordGrade (net : Net) (table : List (Str × (Str × List (Expr F)))) (_ : Nat) (o : Out) (a b : St F) : Prop :=
  a.ctx.requests = table → b.ctx.requests = table ∧
    ∃ msgs recs lost, b.sent = a.sent ++ msgs ++ lost ∧ b.ctx.records = a.ctx.records ++ recs ∧ AnyRecordsOf net table a.sent msgs recs ∧
      lost.length ≤ 1 ∧ (o = .fine → lost = [])

theorem anyRecord_grade (net : Net) (table : List (Str × (Str × List (Expr F)))) : Grade (anyRecordGrade net table) where
  refl s h := ⟨h, [], [], [], by simp, by simp, .nil _, by simp, fun _ => rfl⟩
  comp := by
    intro m n o a b c h1 h2 h
    obtain ⟨hb, m1, r1, l1, hs1, hr1, hx1, _, hl1⟩ := h1 h
    obtain ⟨hc, m2, r2, l2, hs2, hr2, hx2, hl2, hl3⟩ := h2 hb
    have := hl1 rfl
    subst this
    rw [List.append_nil] at hs1
    refine ⟨hc, m1 ++ m2, r1 ++ r2, l2, ?_, ?_, ?_, hl2, hl3⟩
    · rw [hs2, hs1]; simp
    · rw [hr2, hr1]; simp
    · exact hx1.append (by rw [← hs1]; exact hx2)
  mono _ h := h

/-- C127: the record list only grows at its end, by exactly one record per message sent and in sending order; only a panic or an endless loop while a
response is processed can lose one record, that of the last message. -/
theorem c127_records {net : Net} {block : List (Expr F)} {s : St F} {x : Res (Value F) × St F} (h : anyRun net block s x) :
    ∃ msgs recs lost, x.2.sent = s.sent ++ msgs ++ lost ∧ x.2.ctx.records = s.ctx.records ++ recs ∧ AnyRecordsOf net s.ctx.requests s.sent msgs recs ∧
      lost.length ≤ 1 ∧ ((∃ v, x.1 = .ok v) ∨ (∃ m, x.1 = .err m) → lost = []) := by
  obtain ⟨_, m, r, l, h1, h2, h3, h4, h5⟩ := anyBlock_obeys (anyRecord_grade net s.ctx.requests)
    (anyCall_obeys (anyRecord_grade net s.ctx.requests)
      (fun t s h => ⟨h, [], [], [], by simp [M.modify], by simp [M.modify], .nil _, by simp, fun _ => rfl⟩) net
      (fun name message asserts s' x hr hx ht => by
        obtain ⟨text, hm, ⟨rq, rs, t, e, as, inner, out, h1, h2⟩ | ⟨h2, rq, rs, t, e, h1, h3⟩ | ⟨out, h2, _⟩⟩ := anyRequest_cases hx
        · rw [h2]
          refine ⟨ht, [text], [_], [], by simp, rfl, ?_, by simp, fun _ => rfl⟩
          exact .cons ⟨message, asserts, by rw [← ht]; exact hr, ⟨s'.ctx, ht, hm⟩, h1⟩ (.nil _)
        · rw [h2]
          exact ⟨ht, [], [], [text], by simp, by simp, .nil _, by simp, fun h => by cases h⟩
        · rw [h2]
          exact ⟨ht, [], [], [text], by simp, by simp, .nil _, by simp, fun h => by cases h⟩))
    block .null (fun n _ v s h => ⟨h, [], [], [], by simp [writeVar, M.modify], by simp [writeVar, M.modify, Context.set], .nil _, by simp, fun _ => rfl⟩)
    (fun _ _ => Or.inl (fun s h => ⟨h, [], [], [], by simp, by simp, .nil _, by simp, fun _ => rfl⟩)) s x h rfl
  refine ⟨m, r, l, h1, h2, h3, h4, fun h => h5 ?_⟩
  rcases h with ⟨v, h⟩ | ⟨e, h⟩ <;> rw [h] <;> rfl

/-- C127: no panic if no operator that can panic occurs in the block or in the asserts of the known requests, and the clocks are monotone. -/
theorem c127_no_panic {net : Net} {block : List (Expr F)} {s : St F} {x : Res (Value F) × St F}
    (hclock : ∀ sent m, Monotone (clocksOf (net.exch sent m)))
    (hblock : ∀ o ∈ opsList block, SafeOp (Rt.checks F) o)
    (hasserts : ∀ name message asserts, amGet name s.ctx.requests = some (message, asserts) → ∀ o ∈ opsList asserts, SafeOp (Rt.checks F) o)
    (h : anyRun net block s x) : x.1 ≠ .panic := by
  have := anyBlock_obeys (noPanic_grade (F := F) s.ctx.requests)
    (anyCall_obeys (noPanic_grade (F := F) s.ctx.requests) (fun t s h => ⟨h, by simp [M.modify, Res.out]⟩) net
      (fun name message asserts s' x hr hx ht => by
        obtain ⟨text, hm, ⟨rq, rs, t, e, as, inner, out, h1, h2⟩ | ⟨h2, rq, rs, t, e, h1, h3⟩ | ⟨out, h2, h3⟩⟩ := anyRequest_cases hx
        · rw [h2]; exact ⟨ht, by simp [Res.out]⟩
        · rw [h2]; exact ⟨ht, by simp [Res.out]⟩
        · exfalso
          rcases h3 with h3 | ⟨map, t, h3⟩
          · exact send_not_panic _ _ _ (hclock _ _) h3
          · exact (anyAsserts_obeys (noPanic_grade (F := F) []) (anyCall_local (noPanic_grade (F := F) []) (fun t s h => ⟨h, by simp [M.modify, Res.out]⟩)
              (fun _ _ _ _ h hs => h hs hs) net) asserts (fun n _ v s h => ⟨h, by simp [writeVar, M.modify, Res.out]⟩)
              (fun o h => Or.inr (safe_harmless (hasserts name message asserts (by rw [← ht]; exact hr) o h))) _ _ h3 rfl).2 rfl))
    block .null (fun n _ v s h => ⟨h, by simp [writeVar, M.modify, Res.out]⟩) (fun o h => Or.inr (safe_harmless (hblock o h))) s x h rfl
  intro hx
  rw [hx] at this
  exact this.2 rfl

/-- The hypothesis of these theorems is met by a run outside the model's: the same map printed in two ways (`c126_twice`). -/
example (net : Net) : ∃ x : Res (Value F) × St F, anyRun net [printsMap, printsMap] ⟨Context.new, [], []⟩ x ∧ x.2.out ≠ [] ∧ x.2.sent = [] := by
  refine ⟨(.ok .null, ⟨Context.new, [], c!"{\"a\": Integer(1), \"b\": Integer(2)}\n{\"b\": Integer(2), \"a\": Integer(1)}\n"⟩),
    ⟨_, printsMap_any net rfl (.refl _), _, printsMap_any net rfl (.swap _ _ []), rfl⟩, List.cons_ne_nil _ _, rfl⟩

/-- A request may be sent in two ways when its message names a map of two entries; `c127_records` covers both. -/
example : (anyRender (F := F) ⟨[(c!"m", .map [(c!"a", .int 1), (c!"b", .int 2)])], [], []⟩ c!"GET /{m}" c!"GET /{\"a\": Integer(1), \"b\": Integer(2)}") ∧
    anyRender (F := F) ⟨[(c!"m", .map [(c!"a", .int 1), (c!"b", .int 2)])], [], []⟩ c!"GET /{m}" c!"GET /{\"b\": Integer(2), \"a\": Integer(1)}" :=
  ⟨⟨[_], .cons (.map (.cons (.int 1) (.cons (.int 2) .nil)) (.refl _)) .nil, rfl⟩, ⟨[_], .cons (.map (.cons (.int 1) (.cons (.int 2) .nil)) (.swap _ _ [])) .nil, rfl⟩⟩

end Am
