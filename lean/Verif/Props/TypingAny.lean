import Verif.Props.Typing
import Verif.Props.EveryOrder
/-! # C130 whatever the order of hash maps -/
set_option linter.unusedSimpArgs false
set_option linter.unusedSectionVars false
namespace Am
open Spec
variable {F : Type} [Rt F]

/-- `Safely` for every possible outcome. -/
def AnySafely (table : List (Str × (Str × List (Expr F)))) (g : Env) {α : Type} (P : α → Prop) (g' : Env) (m : AnyM F α) : Prop :=
  ∀ s x, s.ctx.requests = table → Meets g s → m s x → x.2.ctx.requests = table ∧ Gives (fun a => P a ∧ Meets g' x.2) x.1

variable {table : List (Str × (Str × List (Expr F)))} {g g1 g' : Env}

theorem AnySafely.det {α : Type} {P : α → Prop} {m : M F α} (h : Safely table g P g' m) : AnySafely table g P g' (.det m) := by
  intro s x hs hm hx
  rw [show x = m s from hx]
  exact h s hs hm

theorem AnySafely.pure {α : Type} {P : α → Prop} {a : α} (h : P a) : AnySafely table g P g (.det (M.pure a) : AnyM F α) := AnySafely.det (Safely.pure h)

theorem AnySafely.lift {α : Type} {P : α → Prop} {Q : Res α → Prop} (h : ∀ r, Q r → Gives P r) : AnySafely table g P g (.lift Q : AnyM F α) := by
  rintro s ⟨r, t⟩ hs hm ⟨h1, h2⟩
  change t = s at h2
  subst h2
  exact ⟨hs, (h r h1).1, fun a ha => ⟨(h r h1).2 a ha, hm⟩⟩

theorem AnySafely.text {α : Type} {P Q : α → Prop} (h : ∀ a, Q a → P a) : AnySafely table g P g (.text Q : AnyM F α) := by
  rintro s x hs hm ⟨a, h1, rfl⟩
  exact ⟨hs, gives_ok ⟨h a h1, hm⟩⟩

theorem AnySafely.weaken {α : Type} {P Q : α → Prop} {m : AnyM F α} (h : AnySafely table g P g1 m) (hp : ∀ a, P a → Q a) (hg : ∀ s : St F, Meets g1 s → Meets g' s) :
    AnySafely table g Q g' m := by
  intro s x hs hm hx
  obtain ⟨h1, h2, h3⟩ := h s x hs hm hx
  exact ⟨h1, h2, fun a ha => ⟨hp a (h3 a ha).1, hg _ (h3 a ha).2⟩⟩

theorem AnySafely.bind {α β : Type} {P : α → Prop} {Q : β → Prop} {m : AnyM F α} {f : α → AnyM F β} (hm : AnySafely table g P g1 m)
    (hf : ∀ a, P a → AnySafely table g1 Q g' (f a)) : AnySafely table g Q g' (.bind m f) := by
  rintro s x hs hv ⟨⟨r, t⟩, h4, h5⟩
  obtain ⟨h1, h2, h3⟩ := hm s _ hs hv h4
  cases r with
  | ok a => exact hf a (h3 a rfl).1 t x h1 (h3 a rfl).2 h5
  | err e => exact absurd rfl (h2 e)
  | panic => cases h5; exact ⟨h1, (fun _ h => nomatch h), (fun _ h => nomatch h)⟩
  | hang => cases h5; exact ⟨h1, (fun _ h => nomatch h), (fun _ h => nomatch h)⟩

theorem AnySafely.write (n : Str) {t : Ty} {v : Value F} (h : HasTy t v) :
    AnySafely table g (fun _ => True) (fun x => if x = n then some t else g x) (.det (M.modify (F := F) fun s => { s with ctx := s.ctx.set n v })) :=
  AnySafely.det (Safely.write n h)

theorem any_error_gives {α : Type} {P : α → Prop} {x r : Res α} {Q : Str → Prop} (h : Gives P x) (hr : anyError x Q r) : Gives P r := by
  cases x with
  | err e => exact absurd rfl (h.1 e)
  | _ => rw [show r = _ from hr]; exact h

theorem any_index_gives {a b t : Ty} (ht : indexTy a b = some t) {v w : Value F} (hv : HasTy a v) (hw : HasTy b w) {r : Res (Value F)} (hr : anyIndex v w r) :
    Gives (HasTy t) r := by
  unfold indexTy at ht
  split at ht
  · cases ht; obtain ⟨l, rfl⟩ := hv; obtain ⟨i, rfl⟩ := hw; cases (show r = _ from hr); exact gives_ok trivial
  · cases ht; obtain ⟨l, rfl⟩ := hv; obtain ⟨_, _, rfl⟩ := hr; exact gives_ok trivial
  · cases ht
    obtain ⟨m, rfl, h⟩ := hv
    cases hw
    obtain ⟨_, h1, rfl⟩ := hr
    cases h1
    exact gives_ok (resp_entry ⟨m, rfl, h⟩ _)
  · cases ht; obtain ⟨l, rfl, _⟩ := hv; obtain ⟨_, _, rfl⟩ := hr; exact gives_ok trivial
  · cases ht

theorem any_format_gives {l : List Ty} (hl : fillsTy l = true) {vs : List (Value F)} (hv : Fitted l vs) {r : Res (Value F)} (hr : anyFormat vs r) :
    Gives (fun v => ∃ s, v = .str s) r := by
  have h0 := format_gives hl hv
  cases vs with
  | nil => rw [show r = _ from hr]; exact h0
  | cons v vs =>
    cases v with
    | str s =>
      unfold anyFormat at hr
      dsimp only at hr
      split at hr
      · rw [hr]; exact h0
      · obtain ⟨ts, _, rfl⟩ := hr
        exact gives_ok ⟨_, rfl⟩
    | _ => rw [show r = _ from hr]; exact h0

theorem resp_of_base {rs : Response} {m : List (Str × Value F)} (base : ∀ n v, n ≠ c!"json" → amGet n (rs.baseMap (F := F)) = some v → amGet n m = some v) :
    HasTy .resp (.map m) := by
  refine ⟨m, rfl, fun n hn => ?_⟩
  simp only [List.mem_cons, List.not_mem_nil, or_false] at hn
  rcases hn with rfl | rfl | rfl | rfl | rfl
  · exact ⟨_, base _ (.str rs.version) (by decide) rfl, fun _ => ⟨_, rfl⟩, fun h => absurd h (by decide), fun h => absurd h (by decide)⟩
  · exact ⟨_, base _ (.str rs.reason) (by decide) rfl, fun _ => ⟨_, rfl⟩, fun h => absurd h (by decide), fun h => absurd h (by decide)⟩
  · exact ⟨_, base _ (.str rs.body) (by decide) rfl, fun _ => ⟨_, rfl⟩, fun h => absurd h (by decide), fun h => absurd h (by decide)⟩
  · exact ⟨_, base _ (.int (Int64.ofNat rs.status)) (by decide) rfl, fun h => absurd h (by decide), fun _ => ⟨_, rfl⟩, fun h => absurd h (by decide)⟩
  · exact ⟨_, base _ (.map (headerMap rs.headers)) (by decide) rfl, fun h => absurd h (by decide), fun h => absurd h (by decide), fun _ => ⟨_, rfl⟩⟩

theorem anyMap_resp {rs : Response} {m : List (Str × Value F)} (h : rs.anyMap (.ok m)) : HasTy .resp (.map m) := by
  unfold Response.anyMap at h
  split at h
  · obtain ⟨v, _, h2⟩ := h
    cases h2
    exact resp_of_base (rs := rs) fun n v hn hv => by rw [amGet_insert, if_neg (by simpa using Ne.symm hn)]; exact hv
  · exact toMap_resp h.symm

/-- In a context without requests, evaluation without `let` leaves the variables as they are. -/
def calmGrade (_ : Nat) (_ : Out) (a b : St F) : Prop := a.ctx.requests = [] → b.ctx.requests = [] ∧ b.ctx.inner = a.ctx.inner

theorem calm_grade : Grade (F := F) calmGrade where
  refl s h := ⟨h, rfl⟩
  comp h1 h2 h := ⟨(h2 (h1 h).1).1, (h2 (h1 h).1).2.trans (h1 h).2⟩
  mono _ h := h

theorem anyAsserts_inner (net : Net) (l : List (Expr F)) (hl : letsList l = []) : AnyObeys calmGrade (callsList l) (anyAsserts (anyCallAt net 0) l) :=
  anyAsserts_obeys calm_grade (anyCall_local calm_grade (fun _ _ h => ⟨h, rfl⟩) (fun _ _ _ _ h hs => h hs hs) net) l
    (fun _ h => by rw [hl] at h; cases h) (fun _ _ => Or.inl fun _ h => ⟨h, rfl⟩)

theorem anyRequest_resp {net : Net} {name message : Str} {asserts : List (Expr F)} {s t : St F} {v : Value F} (hl : letsList asserts = [])
    (h : anyRequest net (anyCallAt net 0) name message asserts s (.ok v, t)) : HasTy .resp v := by
  obtain ⟨_, rfl, _, ⟨text, _, rfl⟩, _, rfl, ⟨r, u⟩, _, h⟩ := h
  cases r with
  | ok p =>
    obtain ⟨rq, rs, tm, e⟩ := p
    obtain ⟨⟨m, w⟩, ⟨hm, _⟩, h⟩ := h
    cases m with
    | ok map =>
      obtain ⟨⟨q, y⟩, ⟨⟨a, z⟩, ha, hq⟩, h⟩ := h
      have hi := (anyAsserts_inner net asserts hl _ _ ha rfl).2
      cases a with
      | ok as =>
        cases hq
        obtain ⟨_, rfl, h⟩ := h
        cases h
        have hi : z.ctx.inner = map := hi
        dsimp only
        rw [hi]
        exact anyMap_resp hm
      | _ => cases hq; cases h
    | _ => cases h
  | _ => cases h

theorem AnySafely.call (net : Net) {f : Str} {l : List Ty} {t : Ty} (ht : callTy table f l = some t) {vs : List (Value F)} (hv : Fitted l vs) :
    AnySafely table g (HasTy t) g (anyCallAt net 1 f vs) := by
  intro s x hs hm hx
  unfold callTy at ht
  unfold anyCallAt at hx
  cases hr : amGet f table with
  | some p =>
    obtain ⟨message, asserts⟩ := p
    rw [hr] at ht
    cases ht
    have hq : s.ctx.request f = some (message, asserts) := by rw [Context.request, hs, hr]
    rw [hq] at hx
    dsimp only at hx
    obtain ⟨text, _, ⟨rq, rs, tm, e, as, inner, out, _, h2⟩ | ⟨h2, _⟩ | ⟨out, h2, _⟩⟩ := anyRequest_cases hx
    all_goals subst h2
    · refine ⟨hs, (fun _ h => nomatch h), fun v hv => ⟨?_, hm⟩⟩
      cases hv
      split
      · rename_i hl
        exact anyRequest_resp (List.isEmpty_iff.1 hl) hx
      · exact ⟨_, rfl⟩
    · exact ⟨hs, (fun _ h => nomatch h), (fun _ h => nomatch h)⟩
    · exact ⟨hs, (fun _ h => nomatch h), (fun _ h => nomatch h)⟩
  | none =>
    rw [hr] at ht
    dsimp only at ht
    rw [show s.ctx.request f = none by rw [Context.request, hs, hr]] at hx
    refine (?_ : AnySafely table g (HasTy t) g (anyNative f vs)) s x hs hm hx
    unfold anyNative
    by_cases h1 : f = c!"println"
    · rw [if_pos (.inl h1)] at ht
      rw [if_pos h1]
      split at ht
      · rename_i hl
        cases ht
        exact AnySafely.bind (AnySafely.lift fun r hr => any_format_gives hl hv hr) fun v _ => AnySafely.bind (AnySafely.det <| Safely.out (fun o => o ++ v.display ++ c!"\n")) fun _ _ => AnySafely.pure rfl
      · cases ht
    · rw [if_neg h1]
      by_cases h2 : f = c!"print"
      · rw [if_pos (.inr h2)] at ht
        rw [if_pos h2]
        split at ht
        · rename_i hl
          cases ht
          exact AnySafely.bind (AnySafely.lift fun r hr => any_format_gives hl hv hr) fun v _ => AnySafely.bind (AnySafely.det <| Safely.out (fun o => o ++ v.display)) fun _ _ => AnySafely.pure rfl
        · cases ht
      · rw [if_neg (by simp [h1, h2])] at ht
        rw [if_neg h2]
        by_cases h3 : f = c!"format"
        · rw [if_pos h3] at ht ⊢
          split at ht
          · rename_i hl
            cases ht
            exact AnySafely.lift fun r hr => any_format_gives hl hv hr
          · cases ht
        · rw [if_neg h3] at ht ⊢
          refine AnySafely.det ?_
          unfold callNative
          rw [if_neg h1, if_neg h2, if_neg h3]
          by_cases h4 : f = c!"length"
          · rw [if_pos h4] at ht ⊢
            split at ht
            · rename_i a
              split at ht
              · rename_i ha
                cases ht
                match vs, hv with
                | [v], hv =>
                  have hv := hv.1
                  refine Safely.lift ?_
                  simp only [Bool.or_eq_true] at ha
                  rcases ha with (ha | ha) | ha
                  · obtain ⟨x, rfl⟩ := hasTy_text hv ha; exact gives_ok ⟨_, rfl⟩
                  · obtain ⟨x, rfl⟩ := hasTy_map hv ha; exact gives_ok ⟨_, rfl⟩
                  · cases eq_of_beq ha; obtain ⟨x, rfl⟩ := hv; exact gives_ok ⟨_, rfl⟩
              · cases ht
            · cases ht
          · rw [if_neg h4] at ht ⊢
            by_cases h5 : f = c!"append"
            · rw [if_pos h5] at ht ⊢
              split at ht
              · cases ht
                match vs, hv with
                | v :: vs, hv =>
                  obtain ⟨x, rfl⟩ := hv.1
                  exact Safely.lift (gives_ok ⟨_, rfl⟩)
              · cases ht
            · rw [if_neg h5] at ht; cases ht

mutual
theorem any_safely_expr (net : Net) : ∀ (e : Expr F) (g : Env) (t : Ty) (g' : Env), typeOf table e g = some (t, g') → AnySafely table g (HasTy t) g' (anyExpr (anyCallAt net 1) e)
  | .int _, g, t, g', h => by cases h; simp only [anyExpr]; exact AnySafely.pure ⟨_, rfl⟩
  | .float _, g, t, g', h => by cases h; simp only [anyExpr]; exact AnySafely.pure ⟨_, rfl⟩
  | .bool _, g, t, g', h => by cases h; simp only [anyExpr]; exact AnySafely.pure ⟨_, rfl⟩
  | .str _, g, t, g', h => by cases h; simp only [anyExpr]; exact AnySafely.pure rfl
  | .ident n, g, t, g', h => by
    simp only [typeOf, Option.map_eq_some_iff] at h
    obtain ⟨t, h, he⟩ := h
    cases he
    intro s x hs hm hx
    obtain ⟨v, h1, h2⟩ := hm n t h
    simp only [anyExpr, AnyM.det, h1] at hx
    cases hx
    exact ⟨hs, gives_ok ⟨h2, hm⟩⟩
  | .arr items, g, t, g', h => by
    simp only [typeOf, Option.map_eq_some_iff] at h
    obtain ⟨⟨ts, g1⟩, h, he⟩ := h
    cases he
    simp only [anyExpr]
    exact AnySafely.bind (any_safely_list net items g ts g1 h) fun vs _ => AnySafely.pure ⟨_, rfl⟩
  | .map pairs, g, t, g', h => by
    simp only [typeOf, Option.map_eq_some_iff] at h
    obtain ⟨g1, h, he⟩ := h
    cases he
    simp only [anyExpr]
    exact AnySafely.bind (any_safely_pairs net pairs g _ [] h) fun vs _ => AnySafely.pure ⟨_, rfl⟩
  | .index l i, g, t, g', h => by
    simp only [typeOf, Option.bind_eq_some_iff, Option.map_eq_some_iff] at h
    obtain ⟨⟨a, g1⟩, h1, ⟨b, g2⟩, h2, c, h3, he⟩ := h
    cases he
    simp only [anyExpr]
    exact AnySafely.bind (any_safely_expr net l g a g1 h1) fun v hv => AnySafely.bind (any_safely_expr net i g1 b g2 h2) fun w hw => AnySafely.lift fun r hr => any_index_gives h3 hv hw hr
  | .field l n, g, t, g', h => by
    simp only [typeOf, Option.bind_eq_some_iff, Option.map_eq_some_iff] at h
    obtain ⟨⟨a, g1⟩, h1, c, h3, he⟩ := h
    cases he
    simp only [anyExpr]
    exact AnySafely.bind (any_safely_expr net l g a g1 h1) fun v hv => AnySafely.lift fun r hr => any_error_gives (field_gives h3 hv) hr
  | .letE n v, g, t, g', h => by
    simp only [typeOf, Option.map_eq_some_iff] at h
    obtain ⟨⟨a, g1⟩, h1, he⟩ := h
    cases he
    simp only [anyExpr]
    exact AnySafely.bind (any_safely_expr net v g a g1 h1) fun v hv => AnySafely.bind (AnySafely.write n hv) fun _ _ => AnySafely.pure hv
  | .unary t r, g, _, g', h => by
    simp only [typeOf, Option.bind_eq_some_iff, Option.map_eq_some_iff] at h
    obtain ⟨⟨a, g1⟩, h1, c, h3, he⟩ := h
    cases he
    simp only [anyExpr]
    exact AnySafely.bind (any_safely_expr net r g a g1 h1) fun v hv => AnySafely.lift fun r hr => any_error_gives (sign_gives h3 hv) hr
  | .binary t l r, g, ty, g', h => by
    simp only [typeOf, Option.bind_eq_some_iff] at h
    obtain ⟨⟨a, g1⟩, h1, ⟨b, g2⟩, h2, h⟩ := h
    have i1 := any_safely_expr net l g a g1 h1
    have i2 := any_safely_expr net r g1 b g2 h2
    simp only [anyExpr]
    split at h
    · rename_i hk
      have ho : binaryOp (F := F) t.kind = none := by rcases hk with hk | hk <;> rw [hk] <;> rfl
      cases h
      rw [ho]
      dsimp only
      by_cases hl : t.kind = .Lo
      · rw [if_pos hl]
        refine AnySafely.bind i1 fun v hv => ?_
        split
        · exact i2.weaken (fun _ h => hasTy_joinRight h) (fun _ h => meets_right h)
        · exact (AnySafely.pure (P := HasTy a) hv).weaken (fun _ h => hasTy_joinLeft h) (fun _ h => meets_left h)
      · rw [if_neg hl, if_pos (hk.resolve_right hl)]
        refine AnySafely.bind i1 fun v hv => ?_
        split
        · exact (AnySafely.pure (P := HasTy a) hv).weaken (fun _ h => hasTy_joinLeft h) (fun _ h => meets_left h)
        · exact i2.weaken (fun _ h => hasTy_joinRight h) (fun _ h => meets_right h)
    · simp only [Option.map_eq_some_iff] at h
      obtain ⟨c, h3, he⟩ := h
      cases he
      cases ho : binaryOp (F := F) t.kind with
      | some op => exact AnySafely.bind i1 fun v hv => AnySafely.bind i2 fun w hw => AnySafely.lift fun r hr => any_error_gives (op_gives ho h3 hv hw) hr
      | none =>
        generalize t.kind = k at h3 ho
        cases k <;> first | (cases ho; done) | (cases h3; done)
  | .paren v, g, t, g', h => by
    simp only [typeOf] at h
    simp only [anyExpr]
    exact any_safely_expr net v g t g' h
  | .ifE c t e, g, ty, g', h => by
    simp only [typeOf, Option.bind_eq_some_iff, Option.map_eq_some_iff] at h
    obtain ⟨⟨a, g1⟩, h1, ⟨b, g2⟩, h2, ⟨d, g3⟩, h3, he⟩ := h
    cases he
    simp only [anyExpr]
    refine AnySafely.bind (any_safely_expr net c g a g1 h1) fun v _ => ?_
    split
    · exact (any_safely_block net e g1 .null d g3 .null rfl h3).weaken (fun _ h => hasTy_joinRight h) (fun _ h => meets_right h)
    · exact (any_safely_block net t g1 .null b g2 .null rfl h2).weaken (fun _ h => hasTy_joinLeft h) (fun _ h => meets_left h)
  | .call f args, g, t, g', h => by
    simp only [typeOf, Option.bind_eq_some_iff, Option.map_eq_some_iff] at h
    obtain ⟨⟨ts, g1⟩, h1, c, h3, he⟩ := h
    cases he
    simp only [anyExpr]
    exact AnySafely.bind (any_safely_list net args g ts g1 h1) fun vs hv => AnySafely.call net h3 hv
termination_by structural e => e
theorem any_safely_list (net : Net) : ∀ (l : List (Expr F)) (g : Env) (ts : List Ty) (g' : Env), typesOf table l g = some (ts, g') →
    AnySafely table g (Fitted ts) g' (anyList (anyCallAt net 1) l)
  | [], g, ts, g', h => by cases h; simp only [anyList]; exact AnySafely.pure trivial
  | e :: l, g, ts, g', h => by
    simp only [typesOf, Option.bind_eq_some_iff, Option.map_eq_some_iff] at h
    obtain ⟨⟨a, g1⟩, h1, ⟨b, g2⟩, h2, he⟩ := h
    cases he
    simp only [anyList]
    exact AnySafely.bind (any_safely_expr net e g a g1 h1) fun v hv => AnySafely.bind (any_safely_list net l g1 b g2 h2) fun vs hvs => AnySafely.pure ⟨hv, hvs⟩
termination_by structural l => l
theorem any_safely_pairs (net : Net) : ∀ (l : List (Expr F × Expr F)) (g : Env) (g' : Env) (acc : List (Str × Value F)), typePairs table l g = some g' →
    AnySafely table g (fun _ => True) g' (anyPairs (anyCallAt net 1) acc l)
  | [], g, g', acc, h => by cases h; simp only [anyPairs]; exact AnySafely.pure trivial
  | (k, v) :: l, g, g', acc, h => by
    simp only [typePairs, Option.bind_eq_some_iff] at h
    obtain ⟨⟨a, g1⟩, h1, ⟨b, g2⟩, h2, h3⟩ := h
    simp only [anyPairs]
    exact AnySafely.bind (any_safely_expr net k g a g1 h1) fun _ _ => AnySafely.bind (any_safely_expr net v g1 b g2 h2) fun _ _ => AnySafely.bind (AnySafely.text (P := fun _ => True) fun _ _ => trivial) fun _ _ => any_safely_pairs net l g2 g' _ h3
termination_by structural l => l
theorem any_safely_block (net : Net) : ∀ (l : List (Expr F)) (g : Env) (t0 t : Ty) (g' : Env) (acc : Value F), HasTy t0 acc → typeBlock table l t0 g = some (t, g') →
    AnySafely table g (HasTy t) g' (anyBlock (anyCallAt net 1) acc l)
  | [], g, t0, t, g', acc, ha, h => by cases h; simp only [anyBlock]; exact AnySafely.pure ha
  | e :: l, g, t0, t, g', acc, ha, h => by
    simp only [typeBlock, Option.bind_eq_some_iff] at h
    obtain ⟨⟨a, g1⟩, h1, h2⟩ := h
    simp only [anyBlock]
    exact AnySafely.bind (any_safely_expr net e g a g1 h1) fun v hv => any_safely_block net l g1 a t g' v hv h2
termination_by structural l => l
end

/-- C130: whatever the order of hash maps, a script that passes the check does not fail with an error; its value and its variables are of the kinds found. -/
theorem c130_any {net : Net} {b : List (Expr F)} {g g' : Env} {t : Ty} {s : St F} {x : Res (Value F) × St F} (hm : Meets g s)
    (h : typeBlock s.ctx.requests b .null g = some (t, g')) (hx : anyRun net b s x) : (∀ e, x.1 ≠ .err e) ∧ ∀ v, x.1 = .ok v → HasTy t v ∧ Meets g' x.2 :=
  (any_safely_block net b g .null t g' .null rfl h s x rfl hm hx).2

/-- C130: and there is a value if moreover no operator that can crash occurs, the clocks go forward and the bodies received can be read in finite time. -/
theorem c130_any_value {net : Net} {b : List (Expr F)} {g g' : Env} {t : Ty} {s : St F} {x : Res (Value F) × St F} (hm : Meets g s)
    (h : typeBlock s.ctx.requests b .null g = some (t, g')) (hbody : BodiesParse F net) (hclock : ∀ sent m, Monotone (clocksOf (net.exch sent m)))
    (hblock : ∀ o ∈ opsList b, SafeOp (Rt.checks F) o)
    (hasserts : ∀ name message asserts, amGet name s.ctx.requests = some (message, asserts) → ∀ o ∈ opsList asserts, SafeOp (Rt.checks F) o)
    (hx : anyRun net b s x) : ∃ v, x.1 = .ok v ∧ HasTy t v ∧ Meets g' x.2 := by
  have h1 := c130_any hm h hx
  have h2 := c127_terminates hbody hx
  have h3 := c127_no_panic hclock hblock hasserts hx
  cases hr : x.1 with
  | ok v => exact ⟨v, rfl, h1.2 v hr⟩
  | err e => exact absurd hr (h1.1 e)
  | panic => exact absurd hr h3
  | hang => exact absurd hr h2

/-- Concrete case: a map printed twice passes the check, and has a run in which it is printed in two ways. -/
example (net : Net) : typeBlock [] ([printsMap, printsMap] : List (Expr F)) .null (fun _ => none) = some (.null, fun _ => none) ∧
    ∃ x : Res (Value F) × St F, anyRun net [printsMap, printsMap] ⟨Context.new, [], []⟩ x ∧
      x.2.out = c!"{\"a\": Integer(1), \"b\": Integer(2)}\n{\"b\": Integer(2), \"a\": Integer(1)}\n" :=
  ⟨rfl, (.ok .null, ⟨Context.new, [], c!"{\"a\": Integer(1), \"b\": Integer(2)}\n{\"b\": Integer(2), \"a\": Integer(1)}\n"⟩),
    ⟨_, printsMap_any net rfl (.refl _), _, printsMap_any net rfl (.swap _ _ []), rfl⟩, rfl⟩

end Am
