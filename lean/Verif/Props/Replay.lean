import Verif.Spec.Replay
import Verif.Props.Timing
import Verif.Props.Asserting
import Verif.Proofs.Answers
/-! # C131: a run can be reproduced from its records -/
set_option linter.unusedSimpArgs false
set_option linter.unusedSectionVars false
namespace Am
open Spec
variable {F : Type} [Rt F]

/-- A value or an error. -/
def Ended {α : Type} (r : Res α) : Prop := r ≠ .panic ∧ r ≠ .hang

/-- `m'` does the same as `m` when the network answers from the records `m` made. -/
def Redone (net' : Net) {α : Type} (_ : Nat) (m m' : M F α) : Prop :=
  ∀ s t, SameButRecords s t → ∃ news, (m s).2.ctx.records = s.ctx.records ++ news ∧ (Ended (m s).1 → (m s).2.sent.length = s.sent.length + news.length) ∧
    (Ended (m s).1 → Replays net' s.sent.length news → (m' t).1 = (m s).1 ∧ SameButRecords (m s).2 (m' t).2 ∧
      ∃ news', (m' t).2.ctx.records = t.ctx.records ++ news' ∧ Each Replayed news news')

theorem sameButRecords_refl (s : St F) : SameButRecords s s := ⟨rfl, rfl, rfl, rfl⟩

theorem redone_quiet {net' : Net} {α : Type} {n : Nat} {m : M F α}
    (h : ∀ s t, SameButRecords s t → (m s).2.ctx.records = s.ctx.records ∧ (m s).2.sent = s.sent ∧ (m t).2.ctx.records = t.ctx.records ∧ (m t).1 = (m s).1 ∧
      SameButRecords (m s).2 (m t).2) : Redone net' n m m := by
  intro s t hs
  obtain ⟨h1, h2, h3, h4, h5⟩ := h s t hs
  exact ⟨[], by rw [h1, List.append_nil], fun _ => by rw [h2]; rfl, fun _ _ => ⟨h4, h5, [], by rw [h3, List.append_nil], .nil⟩⟩

theorem redone_lift (net' : Net) {α : Type} (n : Nat) (r : Res α) : Redone (F := F) net' n (M.lift r) (M.lift r) :=
  redone_quiet fun _ _ h => ⟨rfl, rfl, rfl, rfl, h⟩

theorem replays_left {net' : Net} {n : Nat} {a b : List Record} (h : Replays net' n (a ++ b)) : Replays net' n a := by
  intro i r hi
  exact h i r (by rw [List.getElem?_append_left]; exact hi; exact (List.getElem?_eq_some_iff.1 hi).1)

theorem replays_right {net' : Net} {n : Nat} {a b : List Record} (h : Replays net' n (a ++ b)) : Replays net' (n + a.length) b := by
  intro i r hi sent m hl
  exact h (a.length + i) r (by rw [List.getElem?_append_right (by omega)]; rw [show a.length + i - a.length = i by omega]; exact hi) sent m (by omega)

theorem redone_bind (net' : Net) {α β : Type} {k n : Nat} {x y : M F α} {f g : α → M F β} (hx : Redone net' k x y) (hf : ∀ a, Redone net' n (f a) (g a)) :
    Redone net' (k + n) (x >>= f) (y >>= g) := by
  intro s t hs
  obtain ⟨news, h1, h2, h3⟩ := hx s t hs
  cases hr : x s with | mk r s1 =>
  rw [hr] at h1 h2 h3
  dsimp only at h1 h2 h3
  cases r with
  | ok a =>
    rw [M.bind_ok hr]
    have he : Ended (Res.ok a) := ⟨(fun h => nomatch h), (fun h => nomatch h)⟩
    obtain ⟨more, g1, g2, _⟩ := hf a s1 s1 (sameButRecords_refl s1)
    refine ⟨news ++ more, by rw [g1, h1, List.append_assoc], fun e => by rw [g2 e, h2 he, List.length_append, Nat.add_assoc], fun e hn => ?_⟩
    obtain ⟨k1, k2, news', k3, k4⟩ := h3 he (replays_left hn)
    cases hy : y t with | mk r' t1 =>
    rw [hy] at k1 k2 k3
    dsimp only at k1 k2 k3
    subst k1
    rw [M.bind_ok hy]
    obtain ⟨more', j1, _, j3⟩ := hf a s1 t1 k2
    cases List.append_cancel_left (g1.symm.trans j1)
    obtain ⟨i1, i2, news'', i3, i4⟩ := j3 e (by rw [h2 he]; exact replays_right hn)
    exact ⟨i1, i2, news' ++ news'', by rw [i3, k3, List.append_assoc], k4.append i4⟩
  | err e =>
    rw [M.bind_err hr]
    have he : Ended (Res.err e : Res α) := ⟨(fun h => nomatch h), (fun h => nomatch h)⟩
    refine ⟨news, h1, fun _ => h2 he, fun _ hn => ?_⟩
    obtain ⟨k1, k2, news', k3, k4⟩ := h3 he hn
    cases hy : y t with | mk r' t1 =>
    rw [hy] at k1 k2 k3
    dsimp only at k1 k2 k3
    subst k1
    rw [M.bind_err hy]
    exact ⟨rfl, k2, news', k3, k4⟩
  | panic => rw [M.bind_panic hr]; exact ⟨news, h1, fun h => absurd rfl h.1, fun h => absurd rfl h.1⟩
  | hang => rw [M.bind_hang hr]; exact ⟨news, h1, fun h => absurd rfl h.2, fun h => absurd rfl h.2⟩

theorem redone_closed (net' : Net) : Closed (F := F) (Redone net') where
  pure a := redone_lift net' 0 (.ok a)
  bind := redone_bind net'
  mono := fun _ h => h
  ident n := redone_quiet fun s t h => by
    have hg : s.ctx.get n = t.ctx.get n := by unfold Context.get; rw [h.inner]
    unfold readVar
    rw [hg]
    split <;> exact ⟨rfl, rfl, rfl, rfl, h⟩
  lift _ _ := redone_lift net' 0 _

theorem redone_write (net' : Net) (n : Str) (v : Value F) : Redone net' 0 (writeVar n v) (writeVar n v) :=
  redone_quiet fun _ _ ⟨h1, h2, h3, h4⟩ => ⟨rfl, rfl, rfl, rfl, congrArg (amInsert n v) h1, h2, h3, h4⟩

theorem redone_say (net' : Net) (text : Str) :
    Redone (F := F) net' 0 (M.modify fun s => { s with out := s.out ++ text }) (M.modify fun s => { s with out := s.out ++ text }) :=
  redone_quiet fun _ _ ⟨h1, h2, h3, h4⟩ => ⟨rfl, rfl, rfl, rfl, h1, h2, h3, congrArg (· ++ text) h4⟩

theorem redone_native (net' : Net) (name : Str) (args : List (Value F)) : Redone net' 1 (callNative name args) (callNative name args) := by
  unfold callNative
  simp only [List.append_assoc]
  split
  · exact redone_bind net' (k := 1) (n := 0) (redone_lift net' 1 _) fun v => redone_bind net' (k := 0) (n := 0) (redone_say net' _) fun _ => (redone_closed net').pure _
  · split
    · exact redone_bind net' (k := 1) (n := 0) (redone_lift net' 1 _) fun v => redone_bind net' (k := 0) (n := 0) (redone_say net' _) fun _ => (redone_closed net').pure _
    · repeat (first | exact redone_lift net' 1 _ | split)

theorem render_vars {c c' : Context F} (h : c.inner = c'.inner) (m : Str) : render c m = render c' m := by
  unfold render varText Context.get
  rw [h]

theorem redone_call (net net' : Net) (name : Str) (args : List (Value F)) : Redone net' 1 (callAt net 1 name args) (callAt net' 1 name args) := by
  intro s t hs
  cases hr : s.ctx.request name with
  | none =>
    have hr' : t.ctx.request name = none := by rw [← hr, Context.request, Context.request, hs.requests]
    rw [callAt_none net args hr, callAt_none net' args hr']
    exact redone_native net' name args s t hs
  | some p =>
    obtain ⟨message, asserts⟩ := p
    have hr' : t.ctx.request name = some (message, asserts) := by rw [← hr, Context.request, Context.request, hs.requests]
    have hrender : render t.ctx message = render s.ctx message := render_vars hs.inner.symm message
    rcases callRequest_cases net 0 name message asserts s with ⟨rq, rs, ti, e, map, as, ctx', o, h1, h2, h3, h4⟩ | ⟨o, h4, _⟩ | ⟨o, h4, _⟩
    · have h4' := callAt_some net args hr
      rw [h4] at h4'
      rw [h4']
      refine ⟨[⟨name, ti, rq, rs, as, e⟩], rfl, fun _ => by simp, fun _ hn => ?_⟩
      obtain ⟨rq', ti', e', hsend⟩ := hn 0 _ rfl t.sent (render t.ctx message) (by rw [hs.sent]; rfl)
      dsimp only at hsend
      obtain ⟨k1, o', k2, k3, k4⟩ := c21_only_response net net' name name message message asserts s t args args rq rq' rs ti ti' e e' hr hr' h1 hsend
      rw [h4'] at k1 k2 k4
      dsimp only at k1 k2 k4
      have ho := List.append_cancel_left k2
      subst ho
      rcases k4 with ⟨as', k4, k5⟩ | k4 | k4
      · have hreq : (callAt net' 1 name args t).2.ctx.requests = t.ctx.requests := by
          rw [callAt_some net' args hr']
          rcases callRequest_cases net' 0 name message asserts t with ⟨_, _, _, _, _, _, _, _, _, _, _, h⟩ | ⟨_, h, _⟩ | ⟨_, h, _⟩ <;> rw [h] <;> rfl
        obtain ⟨j1, j2⟩ := c21_isolated net' name message asserts t args hr'
        refine ⟨k1.symm, ⟨?_, ?_, ?_, ?_⟩, _, k5, .cons ⟨rfl, rfl, ?_⟩ .nil⟩
        · rw [j2]; exact hs.inner
        · rw [hreq]; exact hs.requests
        · rw [j1, hrender, hs.sent]
        · rw [k3, hs.out]
        · have := List.append_cancel_left k4
          injection this with this
          injection this
      · cases k4
      · cases k4
    all_goals
      have h4' := callAt_some net args hr
      rw [h4] at h4'
      rw [h4']
      exact ⟨[], (List.append_nil _).symm, fun h => by first | exact absurd rfl h.1 | exact absurd rfl h.2, fun h => by first | exact absurd rfl h.1 | exact absurd rfl h.2⟩

/-- C131: a script that ended with a value or an error does exactly the same on any network that answers from the records it made. -/
theorem c131_block (net net' : Net) (b : List (Expr F)) (s t : St F) (hs : SameButRecords s t) (he : Ended (runBlock net b s).1) :
    ∃ recs, (runBlock net b s).2.ctx.records = s.ctx.records ++ recs ∧ (Replays net' s.sent.length recs →
      (runBlock net' b t).1 = (runBlock net b s).1 ∧ SameButRecords (runBlock net b s).2 (runBlock net' b t).2 ∧
      ∃ recs', (runBlock net' b t).2.ctx.records = t.ctx.records ++ recs' ∧ Each Replayed recs recs') := by
  obtain ⟨recs, h1, _, h3⟩ := evalBlock_closed (redone_closed net') (redone_call net net') b .null (fun n _ v => redone_write net' n v) (fun _ _ => .inl fun _ => redone_lift net' 0 _) s t hs
  exact ⟨recs, h1, h3 he⟩

theorem exchange_other {rq : Request} {x : Exchange} {p : Request × Response × Time × Str} (h : exchange rq x = .ok p) (rq' : Request) :
    exchange rq' x = .ok (rq', p.2.1, p.2.2.1, p.2.2.2) := by
  cases x with
  | refused e c => cases h; rfl
  | broken e c =>
    simp only [exchange] at h ⊢
    cases ht : Time.connected c with
    | ok t => rw [ht] at h; cases h; rfl
    | _ => rw [ht] at h; cases h
  | answered inc c =>
    simp only [exchange] at h ⊢
    cases ht : Time.connected c with
    | ok t =>
      rw [ht] at h
      simp only [bind, Res.bind] at h ⊢
      cases hr : Response.read inc with
      | ok rs =>
        rw [hr] at h
        dsimp only at h ⊢
        cases hc : t.completed c with
        | ok t' => rw [hc] at h; cases h; rfl
        | _ => rw [hc] at h; cases h
      | err e => rw [hr] at h; cases h; rfl
      | _ => rw [hr] at h; cases h
    | _ => rw [ht] at h; cases h

/-- The network that answers the `n`-th message as `net` answered the `n`-th of `all`. -/
def replaying (net : Net) (all : List Str) : Net := ⟨fun sent _ => net.exch (all.take sent.length) (all[sent.length]?.getD []), net.multipart⟩

theorem replaying_records {net : Net} {table : List (Str × (Str × List (Expr F)))} {before msgs : List Str} {recs : List Record} (h : RecordsOf net table before msgs recs) :
    ∀ rest, Replays (replaying net (before ++ msgs ++ rest)) before.length recs := by
  induction h with
  | nil b => intro rest i r hi; simp at hi
  | @cons before m rec ms rs h1 _ ih =>
    intro rest i r hi sent msg hl
    cases i with
    | zero =>
      cases hi
      obtain ⟨_, _, _, _, hsend⟩ := h1
      refine ⟨_, _, _, exchange_other (rq := (Request.ofStr net.multipart m).1) (p := (rec.request, rec.response, rec.time, rec.error)) ?_ _⟩
      rw [← hsend]
      unfold send replaying
      dsimp only
      rw [hl, Nat.add_zero]
      simp
    | succ i =>
      have := ih rest i r (by simpa using hi) sent msg (by simp; omega)
      simpa using this

/-- C131: such networks exist: there is one that looks at nothing but the number of messages sent and answers from the records of the run. -/
theorem c131_exists (net : Net) (b : List (Expr F)) (s : St F) :
    ∃ net' recs, CountsOnly net' ∧ (runBlock net b s).2.ctx.records = s.ctx.records ++ recs ∧ Replays net' s.sent.length recs := by
  obtain ⟨msgs, recs, lost, _, h2, h3, _, _⟩ := c20_records net b s
  refine ⟨replaying net (s.sent ++ msgs ++ lost), recs, ?_, h2, replaying_records h3 lost⟩
  intro sent sent' m m' h
  simp only [replaying, h]

/-- C131: so every script that ended can be run again without its servers, with the same outcome, messages, output and variables. -/
theorem c131_again (net : Net) (b : List (Expr F)) (s : St F) (he : Ended (runBlock net b s).1) : ∃ net', CountsOnly net' ∧
    (runBlock net' b s).1 = (runBlock net b s).1 ∧ SameButRecords (runBlock net b s).2 (runBlock net' b s).2 := by
  obtain ⟨net', recs, h1, h2, h3⟩ := c131_exists net b s
  obtain ⟨recs', g1, g2⟩ := c131_block net net' b s s (sameButRecords_refl s) he
  cases List.append_cancel_left (h2.symm.trans g1)
  exact ⟨net', h1, (g2 h3).1, (g2 h3).2.1⟩

/-- A script of two requests, and a network that answers by the message. -/
example : ∃ (net net' : Net) (recs : List Record), (∃ m m', net.exch [] m ≠ net.exch [] m') ∧ CountsOnly net' ∧ recs.length = 2 ∧
    (runBlock net [.call c!"a" [], .field (.call c!"b" []) c!"body"] (⟨⟨[], [(c!"a", (c!"GET http://h/a", [])), (c!"b", (c!"GET http://h/b", []))], []⟩, [], []⟩ : St F)).2.ctx.records = recs ∧
    Replays net' 0 recs := by
  let net : Net := ⟨fun _ m => if m = c!"GET http://h/a" then .refused .tcpConnectFailed ⟨5, 0, 0, 1, 2, 3, 4, 5, 6, 9⟩
    else .refused .hostNotFound ⟨5, 0, 0, 1, 2, 3, 4, 5, 6, 9⟩, fun _ => none⟩
  obtain ⟨net', recs, h1, h2, h3⟩ := c131_exists net [.call c!"a" [], .field (.call c!"b" []) c!"body"]
    (⟨⟨[], [(c!"a", (c!"GET http://h/a", [])), (c!"b", (c!"GET http://h/b", []))], []⟩, [], []⟩ : St F)
  refine ⟨net, net', recs, ⟨c!"GET http://h/a", [], ?_⟩, h1, ?_, h2, h3⟩
  · simp [net]
  · have : recs.length = (([] : List Record) ++ recs).length := rfl
    rw [this, ← h2]
    rfl

end Am
