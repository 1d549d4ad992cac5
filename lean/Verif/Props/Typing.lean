import Verif.Spec.Typing
import Verif.Props.FindingRun
/-! # C130: a script whose kinds of values fit does not fail -/
set_option linter.unusedSimpArgs false
set_option linter.unusedSectionVars false
namespace Am
open Spec
variable {F : Type} [Rt F]

/-- C130: `slots` is the number of placeholders. -/
theorem c130_slots {s : Str} {ps : List Piece} (h : Pieces s ps) : slots s = holes ps := by
  obtain ⟨qs, h1, h2, _⟩ := findAll_pieces s.length 0 s (Nat.le_refl _)
  rw [pieces_unique h h1]
  exact h2

theorem hasTy_text {t : Ty} {v : Value F} (h : HasTy t v) (ht : t.isText = true) : ∃ s, v = .str s := by
  cases t <;> first | (cases ht; done) | exact h | exact ⟨_, h⟩

theorem hasTy_map {t : Ty} {v : Value F} (h : HasTy t v) (ht : t.isMap = true) : ∃ m, v = .map m := by
  cases t <;> first | (cases ht; done) | exact h | exact ⟨_, h.choose_spec.1⟩

theorem hasTy_joinLeft {a b : Ty} {v : Value F} (h : HasTy a v) : HasTy (a.join b) v := by
  unfold Ty.join
  split
  · exact h
  · split
    · rename_i h1; exact hasTy_text h (Bool.and_eq_true _ _ ▸ h1).1
    · split
      · rename_i h1; exact hasTy_map h (Bool.and_eq_true _ _ ▸ h1).1
      · trivial

theorem hasTy_joinRight {a b : Ty} {v : Value F} (h : HasTy b v) : HasTy (a.join b) v := by
  unfold Ty.join
  split
  · rename_i h1; exact h1 ▸ h
  · split
    · rename_i h1; exact hasTy_text h (Bool.and_eq_true _ _ ▸ h1).2
    · split
      · rename_i h1; exact hasTy_map h (Bool.and_eq_true _ _ ▸ h1).2
      · trivial

theorem meets_left {a b : Env} {s : St F} (h : Meets a s) : Meets (meet a b) s := by
  intro x t ht
  unfold meet at ht
  cases ha : a x with
  | none => rw [ha] at ht; cases ht
  | some u =>
    cases hb : b x with
    | none => rw [ha, hb] at ht; cases ht
    | some w =>
      rw [ha, hb] at ht
      cases ht
      obtain ⟨v, h1, h2⟩ := h x u ha
      exact ⟨v, h1, hasTy_joinLeft h2⟩

theorem meets_right {a b : Env} {s : St F} (h : Meets b s) : Meets (meet a b) s := by
  intro x t ht
  unfold meet at ht
  cases ha : a x with
  | none => rw [ha] at ht; cases ht
  | some u =>
    cases hb : b x with
    | none => rw [ha, hb] at ht; cases ht
    | some w =>
      rw [ha, hb] at ht
      cases ht
      obtain ⟨v, h1, h2⟩ := h x w hb
      exact ⟨v, h1, hasTy_joinRight h2⟩

/-- No error, and every value satisfies `P`. -/
def Gives {α : Type} (P : α → Prop) (r : Res α) : Prop := (∀ e, r ≠ .err e) ∧ ∀ a, r = .ok a → P a

theorem gives_ok {α : Type} {P : α → Prop} {a : α} (h : P a) : Gives P (.ok a) := ⟨(fun _ h => nomatch h), fun _ e => by cases e; exact h⟩

theorem gives_checked (F : Type) [Rt F] (e : Int) : Gives (fun v : Value F => ∃ i, v = .int i) (do let i ← checked F e; pure (.int i)) := by
  unfold checked
  split
  · exact gives_ok ⟨_, rfl⟩
  · split
    · exact ⟨(fun _ h => nomatch h), (fun _ h => nomatch h)⟩
    · exact gives_ok ⟨_, rfl⟩

theorem numTy_cases {a b t : Ty} (h : numTy a b = some t) {v w : Value F} (ha : HasTy a v) (hb : HasTy b w) :
    (t = .int ∧ ∃ i j, v = .int i ∧ w = .int j) ∨ (t = .float ∧ ((∃ i y, v = .int i ∧ w = .float y) ∨ (∃ x j, v = .float x ∧ w = .int j) ∨ ∃ x y, v = .float x ∧ w = .float y)) := by
  unfold numTy at h
  split at h
  · cases h; obtain ⟨i, rfl⟩ := ha; obtain ⟨j, rfl⟩ := hb; exact .inl ⟨rfl, i, j, rfl, rfl⟩
  · cases h; obtain ⟨i, rfl⟩ := ha; obtain ⟨j, rfl⟩ := hb; exact .inr ⟨rfl, .inl ⟨i, j, rfl, rfl⟩⟩
  · cases h; obtain ⟨i, rfl⟩ := ha; obtain ⟨j, rfl⟩ := hb; exact .inr ⟨rfl, .inr (.inl ⟨i, j, rfl, rfl⟩)⟩
  · cases h; obtain ⟨i, rfl⟩ := ha; obtain ⟨j, rfl⟩ := hb; exact .inr ⟨rfl, .inr (.inr ⟨i, j, rfl, rfl⟩)⟩
  · cases h

theorem gives_bind_int {r : Res Int64} (hr : ∀ e, r ≠ .err e) : Gives (fun v : Value F => ∃ i, v = .int i) (do let i ← r; pure (.int i)) := by
  cases r with
  | ok i => exact gives_ok ⟨i, rfl⟩
  | err e => exact absurd rfl (hr e)
  | panic => exact ⟨(fun _ h => nomatch h), (fun _ h => nomatch h)⟩
  | hang => exact ⟨(fun _ h => nomatch h), (fun _ h => nomatch h)⟩

theorem i64Div_not_err (l r : Int64) (e : Str) : i64Div l r ≠ .err e := by
  unfold i64Div; split
  · exact (fun h => nomatch h)
  · split <;> exact (fun h => nomatch h)

theorem i64Rem_not_err (l r : Int64) (e : Str) : i64Rem l r ≠ .err e := by
  unfold i64Rem; split
  · exact (fun h => nomatch h)
  · split <;> exact (fun h => nomatch h)

theorem gives_shift (r : Int64) (f : Nat → Int64) : Gives (fun v : Value F => ∃ i, v = .int i) (do let k ← shiftAmount F r; pure (.int (f k))) := by
  unfold shiftAmount
  split
  · exact gives_ok ⟨_, rfl⟩
  · split
    · exact ⟨(fun _ h => nomatch h), (fun _ h => nomatch h)⟩
    · exact gives_ok ⟨_, rfl⟩

theorem op_gives {k : Kind} {op : Value F → Value F → Res (Value F)} (ho : binaryOp k = some op) {a b t : Ty} (ht : opTy k a b = some t) {v w : Value F}
    (hv : HasTy a v) (hw : HasTy b w) : Gives (HasTy t) (op v w) := by
  cases k <;> first | (cases ho; done) | skip
  case Add =>
    cases ho
    simp only [opTy] at ht
    split at ht
    · rename_i h
      cases ht
      obtain ⟨x, rfl⟩ := hasTy_text hv (Bool.and_eq_true _ _ ▸ h).1
      obtain ⟨y, rfl⟩ := hasTy_text hw (Bool.and_eq_true _ _ ▸ h).2
      exact gives_ok ⟨_, rfl⟩
    · rcases numTy_cases ht hv hw with ⟨rfl, i, j, rfl, rfl⟩ | ⟨rfl, ⟨i, j, rfl, rfl⟩ | ⟨i, j, rfl, rfl⟩ | ⟨i, j, rfl, rfl⟩⟩
      · exact gives_checked F _
      all_goals exact gives_ok ⟨_, rfl⟩
  case Sub =>
    cases ho
    rcases numTy_cases ht hv hw with ⟨rfl, i, j, rfl, rfl⟩ | ⟨rfl, ⟨i, j, rfl, rfl⟩ | ⟨i, j, rfl, rfl⟩ | ⟨i, j, rfl, rfl⟩⟩
    · exact gives_checked F _
    all_goals exact gives_ok ⟨_, rfl⟩
  case Mul =>
    cases ho
    rcases numTy_cases ht hv hw with ⟨rfl, i, j, rfl, rfl⟩ | ⟨rfl, ⟨i, j, rfl, rfl⟩ | ⟨i, j, rfl, rfl⟩ | ⟨i, j, rfl, rfl⟩⟩
    · exact gives_checked F _
    all_goals exact gives_ok ⟨_, rfl⟩
  case Div =>
    cases ho
    rcases numTy_cases ht hv hw with ⟨rfl, i, j, rfl, rfl⟩ | ⟨rfl, ⟨i, j, rfl, rfl⟩ | ⟨i, j, rfl, rfl⟩ | ⟨i, j, rfl, rfl⟩⟩
    · exact gives_bind_int (i64Div_not_err i j)
    all_goals exact gives_ok ⟨_, rfl⟩
  case Rem =>
    cases ho
    rcases numTy_cases ht hv hw with ⟨rfl, i, j, rfl, rfl⟩ | ⟨rfl, ⟨i, j, rfl, rfl⟩ | ⟨i, j, rfl, rfl⟩ | ⟨i, j, rfl, rfl⟩⟩
    · exact gives_bind_int (i64Rem_not_err i j)
    all_goals exact gives_ok ⟨_, rfl⟩
  case Lt | Gt | Le | Ge | Eq | Ne => cases ho; cases ht; exact gives_ok ⟨_, rfl⟩
  all_goals
    cases ho
    simp only [opTy] at ht
    split at ht
    · rename_i h
      cases ht
      obtain ⟨rfl, rfl⟩ := h
      obtain ⟨i, rfl⟩ := hv
      obtain ⟨j, rfl⟩ := hw
      first
      | exact gives_ok ⟨_, rfl⟩
      | exact gives_shift j _
    · cases ht

theorem sign_gives {t : Token} {a b : Ty} (ht : signTy t.kind a = some b) {v : Value F} (hv : HasTy a v) : Gives (HasTy b) (unaryValue t v) := by
  unfold unaryValue
  generalize t.kind = k at ht
  unfold signTy at ht
  split at ht
  · cases ht
    cases v <;> first | exact gives_ok trivial | skip
    all_goals first | exact gives_ok trivial | (rename_i b; cases b <;> exact gives_ok trivial)
  · cases ht; obtain ⟨i, rfl⟩ := hv; exact gives_ok ⟨_, rfl⟩
  · rename_i h1 h2
    cases ht
    cases v with
    | int i => cases a <;> first | exact absurd rfl h1 | exact absurd rfl h2 | (obtain ⟨_, h⟩ := hv; cases h; done) | (obtain ⟨_, h, _⟩ := hv; cases h; done) | (cases hv; done)
    | bool b => cases b <;> exact gives_ok ⟨_, rfl⟩
    | _ => exact gives_ok ⟨_, rfl⟩
  · cases ht; obtain ⟨i, rfl⟩ := hv; exact gives_checked F _
  · cases ht; obtain ⟨i, rfl⟩ := hv; exact gives_ok ⟨_, rfl⟩
  · cases ht

theorem resp_entry {m : List (Str × Value F)} (h : HasTy .resp (.map m)) (n : Str) : HasTy (respEntry n) ((amGet n m).getD .null) := by
  obtain ⟨m', h1, h⟩ := h
  cases h1
  unfold respEntry
  split
  · rename_i hn
    obtain ⟨w, h1, h2, _⟩ := h n (by rcases hn with rfl | rfl | rfl <;> simp)
    rw [h1]
    exact h2 hn
  · split
    · rename_i hn
      obtain ⟨w, h1, _, h2, _⟩ := h n (by subst hn; simp)
      rw [h1]
      exact h2 hn
    · split
      · rename_i hn
        obtain ⟨w, h1, _, _, h2⟩ := h n (by subst hn; simp)
        rw [h1]
        exact h2 hn
      · trivial

theorem index_gives {a b t : Ty} (ht : indexTy a b = some t) {v w : Value F} (hv : HasTy a v) (hw : HasTy b w) : Gives (HasTy t) (indexValue v w) := by
  unfold indexTy at ht
  split at ht
  · cases ht; obtain ⟨l, rfl⟩ := hv; obtain ⟨i, rfl⟩ := hw; exact gives_ok trivial
  · cases ht; obtain ⟨l, rfl⟩ := hv; exact gives_ok trivial
  · cases ht
    obtain ⟨m, rfl, h⟩ := hv
    cases hw
    exact gives_ok (resp_entry ⟨m, rfl, h⟩ _)
  · cases ht; obtain ⟨l, rfl, _⟩ := hv; exact gives_ok trivial
  · cases ht

theorem field_gives {n : Str} {a t : Ty} (ht : fieldTy n a = some t) {v : Value F} (hv : HasTy a v) : Gives (HasTy t) (fieldValue v n) := by
  unfold fieldTy at ht
  split at ht
  · cases ht; obtain ⟨l, rfl⟩ := hv; exact gives_ok trivial
  · cases ht
    obtain ⟨m, rfl, h⟩ := hv
    exact gives_ok (resp_entry ⟨m, rfl, h⟩ _)
  · cases ht

/-- The descriptions fit the values, one by one. -/
def Fitted : List Ty → List (Value F) → Prop
  | [], [] => True
  | t :: l, v :: vs => HasTy t v ∧ Fitted l vs
  | _, _ => False

theorem fitted_length : ∀ {l : List Ty} {vs : List (Value F)}, Fitted l vs → l.length = vs.length
  | [], [], _ => rfl
  | _ :: _, _ :: _, h => congrArg (· + 1) (fitted_length h.2)

theorem format_gives {l : List Ty} (hl : fillsTy l = true) {vs : List (Value F)} (hv : Fitted l vs) : Gives (fun v => ∃ s, v = .str s) (nativeFormat vs) := by
  unfold fillsTy at hl
  split at hl
  · cases vs with
    | nil => cases hv
    | cons v vs =>
      rename_i s l
      obtain ⟨h1, h2⟩ := hv
      cases h1
      have := eq_of_beq hl
      simp only [nativeFormat]
      rw [if_neg]
      · exact gives_ok ⟨_, rfl⟩
      · simp [slots, ← fitted_length h2, this] at this ⊢
        exact this.symm
  · cases hl

/-- Started with the requests of `table` and variables as `g` says, `m` does not fail; its results satisfy `P`, and the variables are then as `g'` says. -/
def Safely (table : List (Str × (Str × List (Expr F)))) (g : Env) {α : Type} (P : α → Prop) (g' : Env) (m : M F α) : Prop :=
  ∀ s, s.ctx.requests = table → Meets g s → (m s).2.ctx.requests = table ∧ Gives (fun a => P a ∧ Meets g' (m s).2) (m s).1

variable {table : List (Str × (Str × List (Expr F)))} {g g1 g' : Env}

theorem Safely.lift {α : Type} {P : α → Prop} {r : Res α} (h : Gives P r) : Safely table g P g (M.lift r : M F α) :=
  fun _ hs hm => ⟨hs, h.1, fun a ha => ⟨h.2 a ha, hm⟩⟩

theorem Safely.pure {α : Type} {P : α → Prop} {a : α} (h : P a) : Safely table g P g (M.pure a : M F α) := Safely.lift (gives_ok h)

theorem Safely.weaken {α : Type} {P Q : α → Prop} {m : M F α} (h : Safely table g P g1 m) (hp : ∀ a, P a → Q a) (hg : ∀ s : St F, Meets g1 s → Meets g' s) :
    Safely table g Q g' m := by
  intro s hs hm
  obtain ⟨h1, h2, h3⟩ := h s hs hm
  exact ⟨h1, h2, fun a ha => ⟨hp a (h3 a ha).1, hg _ (h3 a ha).2⟩⟩

theorem Safely.bind {α β : Type} {P : α → Prop} {Q : β → Prop} {m : M F α} {f : α → M F β} (hm : Safely table g P g1 m) (hf : ∀ a, P a → Safely table g1 Q g' (f a)) :
    Safely table g Q g' (m >>= f) := by
  intro s hs hv
  obtain ⟨h1, h2, h3⟩ := hm s hs hv
  cases hr : m s with | mk r s' =>
  rw [hr] at h1 h2 h3
  dsimp only at h1 h2 h3
  cases r with
  | ok a =>
    rw [M.bind_ok hr]
    exact hf a (h3 a rfl).1 s' h1 (h3 a rfl).2
  | err e => exact absurd rfl (h2 e)
  | panic => rw [M.bind_panic hr]; exact ⟨h1, (fun _ h => nomatch h), (fun _ h => nomatch h)⟩
  | hang => rw [M.bind_hang hr]; exact ⟨h1, (fun _ h => nomatch h), (fun _ h => nomatch h)⟩

theorem Safely.out (f : Str → Str) : Safely table g (fun _ => True) g (M.modify (F := F) fun s => { s with out := f s.out }) :=
  fun _ hs hm => ⟨hs, (fun _ h => nomatch h), fun _ _ => ⟨trivial, hm⟩⟩

theorem Safely.write (n : Str) {t : Ty} {v : Value F} (h : HasTy t v) :
    Safely table g (fun _ => True) (fun x => if x = n then some t else g x) (M.modify (F := F) fun s => { s with ctx := s.ctx.set n v }) := by
  intro s hs hm
  refine ⟨hs, (fun _ h => nomatch h), fun _ _ => ⟨trivial, ?_⟩⟩
  intro x u hx
  simp only [M.modify, Context.get, Context.set, amGet_insert]
  dsimp only at hx
  by_cases hn : x = n
  · rw [if_pos hn] at hx
    cases hx
    exact ⟨v, by simp [hn], h⟩
  · rw [if_neg hn] at hx
    obtain ⟨w, h1, h2⟩ := hm x u hx
    exact ⟨w, by rw [← h1]; simp [hn, Context.get, Ne.symm hn], h2⟩

theorem toMap_resp {rs : Response} {m : List (Str × Value F)} (h : rs.toMap = .ok m) : HasTy .resp (.map m) := by
  have base : ∀ n v, n ≠ c!"json" → amGet n (rs.baseMap (F := F)) = some v → amGet n m = some v := by
    intro n v hn hv
    unfold Response.toMap at h
    split at h
    · split at h
      · cases h
        rw [amGet_insert, if_neg (by simpa using Ne.symm hn)]; exact hv
      · cases h; exact hv
    · cases h; exact hv
    · cases h
    · cases h
  refine ⟨m, rfl, fun n hn => ?_⟩
  simp only [List.mem_cons, List.not_mem_nil, or_false] at hn
  rcases hn with rfl | rfl | rfl | rfl | rfl
  · exact ⟨_, base _ (.str rs.version) (by decide) rfl, fun _ => ⟨_, rfl⟩, fun h => absurd h (by decide), fun h => absurd h (by decide)⟩
  · exact ⟨_, base _ (.str rs.reason) (by decide) rfl, fun _ => ⟨_, rfl⟩, fun h => absurd h (by decide), fun h => absurd h (by decide)⟩
  · exact ⟨_, base _ (.str rs.body) (by decide) rfl, fun _ => ⟨_, rfl⟩, fun h => absurd h (by decide), fun h => absurd h (by decide)⟩
  · exact ⟨_, base _ (.int (Int64.ofNat rs.status)) (by decide) rfl, fun h => absurd h (by decide), fun _ => ⟨_, rfl⟩, fun h => absurd h (by decide)⟩
  · exact ⟨_, base _ (.map (headerMap rs.headers)) (by decide) rfl, fun h => absurd h (by decide), fun h => absurd h (by decide), fun _ => ⟨_, rfl⟩⟩

theorem Safely.call (net : Net) {f : Str} {l : List Ty} {t : Ty} (ht : callTy table f l = some t) {vs : List (Value F)} (hv : Fitted l vs) :
    Safely table g (HasTy t) g (callAt net 1 f vs) := by
  intro s hs hm
  unfold callTy at ht
  cases hr : amGet f table with
  | some p =>
    obtain ⟨message, asserts⟩ := p
    rw [hr] at ht
    cases ht
    have hq : s.ctx.request f = some (message, asserts) := by rw [Context.request, hs, hr]
    have hret := fun h v => c21_returns_response net f message asserts s vs hq h v
    rw [callAt_some net vs hq] at hret ⊢
    rcases callRequest_cases net 0 f message asserts s with ⟨rq, rs, t, e, map, as, ctx', o, _, _, _, h⟩ | ⟨o, h, _⟩ | ⟨o, h, _⟩
    all_goals rw [h] at hret ⊢
    · refine ⟨hs, (fun _ h => nomatch h), fun v hv => ⟨?_, hm⟩⟩
      split
      · rename_i hl
        obtain ⟨_, rs, _, _, m, _, h1, h2⟩ := hret (List.isEmpty_iff.1 hl) v hv
        rw [h2]
        exact toMap_resp h1
      · cases hv; exact ⟨_, rfl⟩
    · exact ⟨hs, (fun _ h => nomatch h), (fun _ h => nomatch h)⟩
    · exact ⟨hs, (fun _ h => nomatch h), (fun _ h => nomatch h)⟩
  | none =>
    rw [hr] at ht
    dsimp only at ht
    rw [callAt_none net vs (show s.ctx.request f = none by rw [Context.request, hs, hr])]
    refine (?_ : Safely table g (HasTy t) g (callNative f vs)) s hs hm
    unfold callNative
    by_cases h1 : f = c!"println"
    · rw [if_pos (.inl h1)] at ht
      rw [if_pos h1]
      split at ht
      · rename_i hl
        cases ht
        exact Safely.bind (Safely.lift (format_gives hl hv)) fun v _ => Safely.bind (Safely.out (fun o => o ++ v.display ++ c!"\n")) fun _ _ => Safely.pure rfl
      · cases ht
    · rw [if_neg h1]
      by_cases h2 : f = c!"print"
      · rw [if_pos (.inr h2)] at ht
        rw [if_pos h2]
        split at ht
        · rename_i hl
          cases ht
          exact Safely.bind (Safely.lift (format_gives hl hv)) fun v _ => Safely.bind (Safely.out (fun o => o ++ v.display)) fun _ _ => Safely.pure rfl
        · cases ht
      · rw [if_neg (by simp [h1, h2])] at ht
        rw [if_neg h2]
        by_cases h3 : f = c!"format"
        · rw [if_pos h3] at ht ⊢
          split at ht
          · rename_i hl
            cases ht
            exact Safely.lift (format_gives hl hv)
          · cases ht
        · rw [if_neg h3] at ht ⊢
          by_cases h4 : f = c!"length"
          · rw [if_pos h4] at ht ⊢
            split at ht
            · rename_i a
              split at ht
              · rename_i ha
                cases ht
                match vs, hv with
                | [v], hv =>
                  have hv := hv.1
                  refine Safely.lift ?_
                  simp only [Bool.or_eq_true] at ha
                  rcases ha with (ha | ha) | ha
                  · obtain ⟨x, rfl⟩ := hasTy_text hv ha; exact gives_ok ⟨_, rfl⟩
                  · obtain ⟨x, rfl⟩ := hasTy_map hv ha; exact gives_ok ⟨_, rfl⟩
                  · cases eq_of_beq ha; obtain ⟨x, rfl⟩ := hv; exact gives_ok ⟨_, rfl⟩
              · cases ht
            · cases ht
          · rw [if_neg h4] at ht ⊢
            by_cases h5 : f = c!"append"
            · rw [if_pos h5] at ht ⊢
              split at ht
              · cases ht
                match vs, hv with
                | v :: vs, hv =>
                  obtain ⟨x, rfl⟩ := hv.1
                  exact Safely.lift (gives_ok ⟨_, rfl⟩)
              · cases ht
            · rw [if_neg h5] at ht; cases ht

mutual
theorem safely_expr (net : Net) : ∀ (e : Expr F) (g : Env) (t : Ty) (g' : Env), typeOf table e g = some (t, g') → Safely table g (HasTy t) g' (evalExpr (callAt net 1) e)
  | .int _, g, t, g', h => by cases h; simp only [evalExpr]; exact Safely.pure ⟨_, rfl⟩
  | .float _, g, t, g', h => by cases h; simp only [evalExpr]; exact Safely.pure ⟨_, rfl⟩
  | .bool _, g, t, g', h => by cases h; simp only [evalExpr]; exact Safely.pure ⟨_, rfl⟩
  | .str _, g, t, g', h => by cases h; simp only [evalExpr]; exact Safely.pure rfl
  | .ident n, g, t, g', h => by
    simp only [typeOf, Option.map_eq_some_iff] at h
    obtain ⟨t, h, he⟩ := h
    cases he
    intro s hs hm
    obtain ⟨v, h1, h2⟩ := hm n t h
    simp only [evalExpr, h1]
    exact ⟨hs, gives_ok ⟨h2, hm⟩⟩
  | .arr items, g, t, g', h => by
    simp only [typeOf, Option.map_eq_some_iff] at h
    obtain ⟨⟨ts, g1⟩, h, he⟩ := h
    cases he
    simp only [evalExpr]
    exact Safely.bind (safely_list net items g ts g1 h) fun vs _ => Safely.pure ⟨_, rfl⟩
  | .map pairs, g, t, g', h => by
    simp only [typeOf, Option.map_eq_some_iff] at h
    obtain ⟨g1, h, he⟩ := h
    cases he
    simp only [evalExpr]
    exact Safely.bind (safely_pairs net pairs g _ [] h) fun vs _ => Safely.pure ⟨_, rfl⟩
  | .index l i, g, t, g', h => by
    simp only [typeOf, Option.bind_eq_some_iff, Option.map_eq_some_iff] at h
    obtain ⟨⟨a, g1⟩, h1, ⟨b, g2⟩, h2, c, h3, he⟩ := h
    cases he
    simp only [evalExpr]
    exact Safely.bind (safely_expr net l g a g1 h1) fun v hv => Safely.bind (safely_expr net i g1 b g2 h2) fun w hw => Safely.lift (index_gives h3 hv hw)
  | .field l n, g, t, g', h => by
    simp only [typeOf, Option.bind_eq_some_iff, Option.map_eq_some_iff] at h
    obtain ⟨⟨a, g1⟩, h1, c, h3, he⟩ := h
    cases he
    simp only [evalExpr]
    exact Safely.bind (safely_expr net l g a g1 h1) fun v hv => Safely.lift (field_gives h3 hv)
  | .letE n v, g, t, g', h => by
    simp only [typeOf, Option.map_eq_some_iff] at h
    obtain ⟨⟨a, g1⟩, h1, he⟩ := h
    cases he
    simp only [evalExpr]
    exact Safely.bind (safely_expr net v g a g1 h1) fun v hv => Safely.bind (Safely.write n hv) fun _ _ => Safely.pure hv
  | .unary t r, g, _, g', h => by
    simp only [typeOf, Option.bind_eq_some_iff, Option.map_eq_some_iff] at h
    obtain ⟨⟨a, g1⟩, h1, c, h3, he⟩ := h
    cases he
    simp only [evalExpr]
    exact Safely.bind (safely_expr net r g a g1 h1) fun v hv => Safely.lift (sign_gives h3 hv)
  | .binary t l r, g, ty, g', h => by
    simp only [typeOf, Option.bind_eq_some_iff] at h
    obtain ⟨⟨a, g1⟩, h1, ⟨b, g2⟩, h2, h⟩ := h
    have i1 := safely_expr net l g a g1 h1
    have i2 := safely_expr net r g1 b g2 h2
    simp only [evalExpr]
    split at h
    · rename_i hk
      have ho : binaryOp (F := F) t.kind = none := by rcases hk with hk | hk <;> rw [hk] <;> rfl
      cases h
      rw [ho]
      dsimp only
      by_cases hl : t.kind = .Lo
      · rw [if_pos hl]
        refine Safely.bind i1 fun v hv => ?_
        split
        · exact i2.weaken (fun _ h => hasTy_joinRight h) (fun _ h => meets_right h)
        · exact (Safely.pure (P := HasTy a) hv).weaken (fun _ h => hasTy_joinLeft h) (fun _ h => meets_left h)
      · rw [if_neg hl, if_pos (hk.resolve_right hl)]
        refine Safely.bind i1 fun v hv => ?_
        split
        · exact (Safely.pure (P := HasTy a) hv).weaken (fun _ h => hasTy_joinLeft h) (fun _ h => meets_left h)
        · exact i2.weaken (fun _ h => hasTy_joinRight h) (fun _ h => meets_right h)
    · simp only [Option.map_eq_some_iff] at h
      obtain ⟨c, h3, he⟩ := h
      cases he
      cases ho : binaryOp (F := F) t.kind with
      | some op => exact Safely.bind i1 fun v hv => Safely.bind i2 fun w hw => Safely.lift (op_gives ho h3 hv hw)
      | none =>
        generalize t.kind = k at h3 ho
        cases k <;> first | (cases ho; done) | (cases h3; done)
  | .paren v, g, t, g', h => by
    simp only [typeOf] at h
    simp only [evalExpr]
    exact safely_expr net v g t g' h
  | .ifE c t e, g, ty, g', h => by
    simp only [typeOf, Option.bind_eq_some_iff, Option.map_eq_some_iff] at h
    obtain ⟨⟨a, g1⟩, h1, ⟨b, g2⟩, h2, ⟨d, g3⟩, h3, he⟩ := h
    cases he
    simp only [evalExpr]
    refine Safely.bind (safely_expr net c g a g1 h1) fun v _ => ?_
    split
    · exact (safely_block net e g1 .null d g3 .null rfl h3).weaken (fun _ h => hasTy_joinRight h) (fun _ h => meets_right h)
    · exact (safely_block net t g1 .null b g2 .null rfl h2).weaken (fun _ h => hasTy_joinLeft h) (fun _ h => meets_left h)
  | .call f args, g, t, g', h => by
    simp only [typeOf, Option.bind_eq_some_iff, Option.map_eq_some_iff] at h
    obtain ⟨⟨ts, g1⟩, h1, c, h3, he⟩ := h
    cases he
    simp only [evalExpr]
    exact Safely.bind (safely_list net args g ts g1 h1) fun vs hv => Safely.call net h3 hv
termination_by structural e => e
theorem safely_list (net : Net) : ∀ (l : List (Expr F)) (g : Env) (ts : List Ty) (g' : Env), typesOf table l g = some (ts, g') →
    Safely table g (Fitted ts) g' (evalList (callAt net 1) l)
  | [], g, ts, g', h => by cases h; simp only [evalList]; exact Safely.pure trivial
  | e :: l, g, ts, g', h => by
    simp only [typesOf, Option.bind_eq_some_iff, Option.map_eq_some_iff] at h
    obtain ⟨⟨a, g1⟩, h1, ⟨b, g2⟩, h2, he⟩ := h
    cases he
    simp only [evalList]
    exact Safely.bind (safely_expr net e g a g1 h1) fun v hv => Safely.bind (safely_list net l g1 b g2 h2) fun vs hvs => Safely.pure ⟨hv, hvs⟩
termination_by structural l => l
theorem safely_pairs (net : Net) : ∀ (l : List (Expr F × Expr F)) (g : Env) (g' : Env) (acc : List (Str × Value F)), typePairs table l g = some g' →
    Safely table g (fun _ => True) g' (evalPairs (callAt net 1) acc l)
  | [], g, g', acc, h => by cases h; simp only [evalPairs]; exact Safely.pure trivial
  | (k, v) :: l, g, g', acc, h => by
    simp only [typePairs, Option.bind_eq_some_iff] at h
    obtain ⟨⟨a, g1⟩, h1, ⟨b, g2⟩, h2, h3⟩ := h
    simp only [evalPairs]
    exact Safely.bind (safely_expr net k g a g1 h1) fun _ _ => Safely.bind (safely_expr net v g1 b g2 h2) fun _ _ => safely_pairs net l g2 g' _ h3
termination_by structural l => l
theorem safely_block (net : Net) : ∀ (l : List (Expr F)) (g : Env) (t0 t : Ty) (g' : Env) (acc : Value F), HasTy t0 acc → typeBlock table l t0 g = some (t, g') →
    Safely table g (HasTy t) g' (evalBlock (callAt net 1) acc l)
  | [], g, t0, t, g', acc, ha, h => by cases h; simp only [evalBlock]; exact Safely.pure ha
  | e :: l, g, t0, t, g', acc, ha, h => by
    simp only [typeBlock, Option.bind_eq_some_iff] at h
    obtain ⟨⟨a, g1⟩, h1, h2⟩ := h
    simp only [evalBlock]
    exact Safely.bind (safely_expr net e g a g1 h1) fun v hv => safely_block net l g1 a t g' v hv h2
termination_by structural l => l
end

/-- C130: a script that passes the check does not fail with an error, whatever the servers answer and whatever the asserts say; its value and its
variables are of the kinds found by the check. -/
theorem c130_block (net : Net) (b : List (Expr F)) {g g' : Env} {t : Ty} (s : St F) (hm : Meets g s) (h : typeBlock s.ctx.requests b .null g = some (t, g')) :
    (∀ e, (runBlock net b s).1 ≠ .err e) ∧ ∀ v, (runBlock net b s).1 = .ok v → HasTy t v ∧ Meets g' (runBlock net b s).2 :=
  (safely_block net b g .null t g' .null rfl h s rfl hm).2

/-- C130: if moreover no operator that can crash occurs, the clocks go forward and the bodies received can be read in finite time, there is a value. -/
theorem c130_value (net : Net) (b : List (Expr F)) {g g' : Env} {t : Ty} (s : St F) (hm : Meets g s) (h : typeBlock s.ctx.requests b .null g = some (t, g'))
    (hbody : BodiesParse F net) (hclock : ∀ sent m, Monotone (clocksOf (net.exch sent m))) (hblock : ∀ o ∈ opsList b, SafeOp (Rt.checks F) o)
    (hasserts : ∀ name message asserts, amGet name s.ctx.requests = some (message, asserts) → ∀ o ∈ opsList asserts, SafeOp (Rt.checks F) o) :
    ∃ v, (runBlock net b s).1 = .ok v ∧ HasTy t v ∧ Meets g' (runBlock net b s).2 := by
  have h1 := c130_block net b s hm h
  have h2 := c13_terminates net b s hbody
  have h3 := c14_no_panic_partial net b s hclock hblock hasserts
  cases hr : (runBlock net b s).1 with
  | ok v => exact ⟨v, rfl, h1.2 v hr⟩
  | err e => exact absurd hr (h1.1 e)
  | panic => exact absurd hr h3
  | hang => exact absurd hr h2

/-- Concrete case: a request, a variable set on both branches, arithmetic and a text with as many placeholders as arguments; the value is a text. -/
example : (typeBlock [(c!"ping", (c!"GET http://h/", [.binary ⟨.Eq, c!"=="⟩ (.ident c!"status") (.int 200)]))]
    ([.letE c!"r" (.call c!"ping" []), .ifE (.binary ⟨.Lt, c!"<"⟩ (.field (.ident c!"r") c!"status") (.int 300)) [.letE c!"n" (.int 1)] [.letE c!"n" (.int 2)],
      .letE c!"n" (.binary ⟨.Add, c!"+"⟩ (.ident c!"n") (.field (.ident c!"r") c!"status")),
      .call c!"format" [.str c!"{a} and {b}", .ident c!"n", .field (.ident c!"r") c!"json"]] : List (Expr F)) .null (fun _ => none)).map
      (fun p => (p.1, p.2 c!"n", p.2 c!"r")) = some (.str, some .int, some .resp) := by
  simp only [typeBlock, typeOf, typesOf]
  rfl

/-- C130: the check is needed, and it may reject a script that does not fail. -/
theorem c130_needed (net : Net) (s : St F) (hs : s.ctx.requests = []) :
    (∃ e, (runBlock net [.binary ⟨.Add, c!"+"⟩ (.int 1) (.str c!"a")] s).1 = .err e) ∧ (∃ e, (runBlock net [.call c!"format" [.str c!"{a}"]] s).1 = .err e) ∧
    (∃ e, (runBlock net [.field (.int 1) c!"x"] s).1 = .err e) ∧
    (runBlock net [.ifE (.bool false) [.unary ⟨.Sub, c!"-"⟩ (.str c!"a")] [.int 1]] s).1 = .ok (.int 1) ∧
    typeBlock s.ctx.requests [.ifE (.bool false) [.unary ⟨.Sub, c!"-"⟩ (.str c!"a")] [.int 1]] .null (fun _ => none) = none := by
  obtain ⟨⟨inner, requests, records⟩, sent, out⟩ := s
  cases hs
  exact ⟨⟨_, rfl⟩, ⟨_, rfl⟩, ⟨_, rfl⟩, rfl, rfl⟩

theorem meets_wider {g g' : Env} (h : Wider g' g) {s : St F} (hm : Meets g' s) : Meets g s := by
  intro x t hx
  obtain ⟨u, h1, h2⟩ := h x t hx
  obtain ⟨v, h3, h4⟩ := hm x u h1
  exact ⟨v, h3, h2 ▸ hasTy_joinLeft h4⟩

/-- The worker's requests are those of `table`, its test passes the check for `g` and brings `g` about again, and its variables are as `g` says unless it has
come to an end. -/
def Rehearsed (table : List (Str × (Str × List (Expr F)))) (g : Env) (w : Worker F) : Prop :=
  w.ctx.requests = table ∧ (∃ t g', typeBlock table w.test .null g = some (t, g') ∧ Wider g' g) ∧ (w.pc = .done ∨ w.pc = .stuck ∨ Meets g ⟨w.ctx, [], []⟩)

theorem rehearsed_step {cfg : Config} {cont : Bool} {i : Nat} {net : Net} {w w' : Worker F} {e : Effect}
    (h : Rehearsed table g w) (hs : w.step cfg cont i net = some (w', e)) : Rehearsed table g w' := by
  obtain ⟨h1, ⟨t, g', h2, h3⟩, h4⟩ := h
  have h4 : Meets g ⟨w.ctx, [], []⟩ := by
    rcases h4 with h | h | h
    · simp only [Worker.step, h] at hs; cases hs
    · simp only [Worker.step, h] at hs; cases hs
    · exact h
  unfold Worker.step at hs
  split at hs
  · split at hs
    · split at hs <;> (cases hs; exact ⟨h1, ⟨t, g', h2, h3⟩, .inr (.inr h4)⟩)
    · cases hs; exact ⟨h1, ⟨t, g', h2, h3⟩, .inr (.inr h4)⟩
  · obtain ⟨k1, k2, k3⟩ := safely_block net w.test g .null t g' .null rfl h2 ⟨w.ctx, [], []⟩ h1 h4
    have k1 : (runBlock net w.test ⟨w.ctx, [], []⟩).2.ctx.requests = table := k1
    have k2 : ∀ e, (runBlock net w.test ⟨w.ctx, [], []⟩).1 ≠ .err e := k2
    have k3 : ∀ v, (runBlock net w.test ⟨w.ctx, [], []⟩).1 = .ok v → HasTy t v ∧ Meets g' (runBlock net w.test ⟨w.ctx, [], []⟩).2 := k3
    cases hr : runBlock net w.test ⟨w.ctx, [], []⟩ with | mk r s =>
    rw [hr] at k1 k2 k3 hs
    cases r with
    | ok v => cases hs; exact ⟨k1, ⟨t, g', h2, h3⟩, .inr (.inr (meets_wider h3 (s := ⟨s.ctx.takeRecords.2, [], []⟩) (k3 v rfl).2))⟩
    | err m => exact absurd rfl (k2 m)
    | panic => cases hs; exact ⟨k1, ⟨t, g', h2, h3⟩, .inl rfl⟩
    | hang => cases hs; exact ⟨k1, ⟨t, g', h2, h3⟩, .inr (.inl rfl)⟩
  · cases hs; exact ⟨h1, ⟨t, g', h2, h3⟩, .inr (.inr h4)⟩
  · cases hs; exact ⟨h1, ⟨t, g', h2, h3⟩, .inr (.inr h4)⟩
  · dsimp only at hs
    split at hs <;> (cases hs; exact ⟨h1, ⟨t, g', h2, h3⟩, .inr (.inr h4)⟩)
  · cases hs; exact ⟨h1, ⟨t, g', h2, h3⟩, .inr (.inr h4)⟩
  · cases hs
  · cases hs

/-- C130: at every point of every run of `am test`, under every schedule, the next iteration of a thread whose test passes the check does not fail with an error,
whatever the servers answer, unless the thread has crashed or hung before. `base` is the context the threads start with. -/
theorem c130_run {cfg : Config} {base : Context F} {g : Env} (hm : Meets g ⟨base, [], []⟩) {ws : List (Worker F)}
    (hw : ∀ w ∈ ws, ∃ record name test t g', w = Worker.init record base name test ∧ typeBlock base.requests test .null g = some (t, g') ∧ Wider g' g)
    {l : List RunStep} {r : Run F} (hr : (Run.init ws).run cfg l = some r) (net : Net) : ∀ w ∈ r.workers, w.pc ≠ .done → w.pc ≠ .stuck →
    ∀ e, (runBlock net w.test ⟨w.ctx, [], []⟩).1 ≠ .err e := by
  intro w hm' hd hk
  have h0 : ∀ w ∈ (Run.init ws).workers, Rehearsed base.requests g w := by
    intro w hm'
    obtain ⟨record, name, test, t, g', rfl, h1, h2⟩ := hw w hm'
    exact ⟨rfl, ⟨t, g', h1, h2⟩, .inr (.inr hm)⟩
  obtain ⟨h1, ⟨t, g', h2, h3⟩, h4⟩ := run_keeps (fun _ _ _ _ _ _ => rehearsed_step) l _ r h0 hr w hm'
  exact (safely_block net w.test g .null t g' .null rfl h2 ⟨w.ctx, [], []⟩ h1 ((h4.resolve_left hd).resolve_left hk)).2.1

/-- C130: from the text: when the statements at top level and the tests pass the check, neither the statements at top level nor any iteration of any test in any
thread fails with an error, under any schedule. -/
theorem c130_am_test {text : Str} {src : Source F} (hp : (parse text : Res (Source F)) = .ok src) (net : Net) (s : St F) {g0 g1 g : Env} {t : Ty}
    (hm : Meets g0 s) (htop : typeBlock (s.ctx.extend src.requests).requests src.exprs .null g0 = some (t, g1)) (hg : Wider g1 g)
    (htests : ∀ p ∈ src.tests, ∃ u g', typeBlock (s.ctx.extend src.requests).requests p.2 .null g = some (u, g') ∧ Wider g' g) :
    (∀ e, (runBlock net src.exprs { s with ctx := s.ctx.extend src.requests }).1 ≠ .err e) ∧
    ∀ tests t, setup net text s = (.ok (some tests), t) → ∀ order : List (Str × List (Expr F)) → List (Str × List (Expr F)), (∀ l, ∀ p ∈ order l, p ∈ l) →
    ∀ record name threads number stat cfg ws, startWorkers order record t.ctx tests name threads number stat = .ok (some (cfg, ws)) →
    ∀ l r, (Run.init ws).run cfg l = some r → ∀ net, ∀ w ∈ r.workers, w.pc ≠ .done → w.pc ≠ .stuck → ∀ e, (runBlock net w.test ⟨w.ctx, [], []⟩).1 ≠ .err e := by
  have htop' := c130_block net src.exprs { s with ctx := s.ctx.extend src.requests } hm htop
  refine ⟨htop'.1, ?_⟩
  intro tests t hs order ho record name threads number stat cfg ws hw l r hr net' w hm'
  have hreq := c19_requests_fixed net src.exprs { s with ctx := s.ctx.extend src.requests }
  unfold setup at hs
  rw [hp] at hs
  dsimp only at hs
  cases hx : runBlock net src.exprs { s with ctx := s.ctx.extend src.requests } with | mk q u =>
  rw [hx] at hs hreq htop'
  cases q with
  | ok v =>
    dsimp only at hs hreq htop'
    cases hs
    refine c130_run (g := g) (meets_wider hg (htop'.2 v rfl).2) (fun w hm => ?_) hr net' w hm'
    obtain ⟨t, h1, h2⟩ := startWorkers_init ho hw w hm
    obtain ⟨a, g', h3, h4⟩ := htests t h1
    exact ⟨record, t.1, t.2, a, g', h2, by rw [hreq]; exact h3, h4⟩
  | _ => cases hs

/-- Concrete case: the top level sets the number of items, the test uses and changes it. -/
example : ∃ src : Source F, parse c!"let n = 1 request r `GET http://h/{n}` test t { let x = r() let n = n + x.status println(\"{n}\", n) }" = .ok src ∧ src.tests.length = 1 ∧
    ∃ t g1 g, typeBlock src.requests src.exprs .null (fun _ => none) = some (t, g1) ∧ g c!"n" = some .int ∧ Wider g1 g ∧
    ∀ p ∈ src.tests, ∃ u g', typeBlock src.requests p.2 .null g = some (u, g') ∧ Wider g' g := by
  refine ⟨⟨[.letE c!"n" (.int 1)], [(c!"r", (c!"GET http://h/{n}", []))], [(c!"t", [.letE c!"x" (.call c!"r" []),
    .letE c!"n" (.binary ⟨.Add, c!"+"⟩ (.ident c!"n") (.field (.ident c!"x") c!"status")), .call c!"println" [.str c!"{n}", .ident c!"n"]])]⟩, rfl, rfl,
    .int, _, fun x => if x = c!"n" then some .int else none, rfl, rfl, ?_, ?_⟩
  · intro x t hx
    exact ⟨t, hx, by simp [Ty.join]⟩
  · intro p hp
    cases List.mem_singleton.1 hp
    refine ⟨_, _, rfl, ?_⟩
    intro x t hx
    dsimp only at hx ⊢
    split at hx
    · rename_i h; subst h; cases hx; exact ⟨_, rfl, rfl⟩
    · cases hx

end Am
