import Verif.Spec.Causal
import Verif.Props.Waiting
import Verif.Props.Answers
import Verif.Proofs.EvalCalls
/-! # C133: an answer has no influence on what came before it -/
set_option linter.unusedSimpArgs false
set_option linter.unusedSectionVars false
namespace Am
open Spec
variable {F : Type} [Rt F] {quiet : List Str → Str → Bool}

theorem ahead_refl (s : St F) : Ahead s s := ⟨List.prefix_refl _, List.prefix_refl _, List.prefix_refl _⟩

theorem ahead_trans {s t u : St F} (h : Ahead s t) (h' : Ahead t u) : Ahead s u := ⟨h.1.trans h'.1, h.2.1.trans h'.2.1, h.2.2.trans h'.2.2⟩

/-- The same computation when every exchange ends and when some do not, with what has been recorded. -/
def Leads {α : Type} (_ : Nat) (m m' : M F α) : Prop :=
  (∀ s, Ahead s (m s).2) ∧ ∀ s, m' s = m s ∨ (m' s).1 = .hang ∧ Ahead (m' s).2 (m s).2

theorem leads_same {α : Type} {m : M F α} (n : Nat) (h : ∀ s, Ahead s (m s).2) : Leads n m m := ⟨h, fun _ => .inl rfl⟩

theorem leads_lift {α : Type} (n : Nat) (r : Res α) : Leads (F := F) n (M.lift r) (M.lift r) := leads_same n fun s => ahead_refl s

theorem leads_bind {α β : Type} {k n : Nat} {x y : M F α} {f g : α → M F β} (h : Leads k x y) (h' : ∀ a, Leads n (f a) (g a)) :
    Leads (k + n) (x >>= f) (y >>= g) := by
  have grow : ∀ s, Ahead (x s).2 ((x >>= f) s).2 := by
    intro s
    show Ahead _ (M.bind x f s).2
    unfold M.bind
    rcases hx : x s with ⟨r, t⟩
    cases r with
    | ok a => exact (h' a).1 t
    | _ => exact ahead_refl t
  refine ⟨fun s => ahead_trans (h.1 s) (grow s), fun s => ?_⟩
  rcases h.2 s with h1 | ⟨h1, h2⟩
  · show M.bind y g s = M.bind x f s ∨ (M.bind y g s).1 = .hang ∧ Ahead (M.bind y g s).2 (M.bind x f s).2
    unfold M.bind
    rw [h1]
    rcases hx : x s with ⟨r, t⟩
    cases r with
    | ok a => exact (h' a).2 t
    | _ => exact .inl rfl
  · right
    have he : (y >>= g) s = (.hang, (y s).2) := by
      rcases hy : y s with ⟨r, t⟩
      rw [hy] at h1
      cases h1
      exact M.bind_hang hy
    rw [he]
    exact ⟨rfl, ahead_trans h2 (grow s)⟩

theorem leads_closed : Closed (F := F) Leads where
  pure a := leads_lift 0 (.ok a)
  bind := leads_bind
  mono := fun _ h => h
  ident n := leads_same 0 fun s => by
    unfold readVar
    split <;> exact ahead_refl s
  lift _ _ := leads_lift 0 _

theorem leads_write (n : Str) (v : Value F) : Leads 0 (writeVar n v) (writeVar n v) :=
  leads_same 0 fun _ => ⟨List.prefix_refl _, List.prefix_refl _, List.prefix_refl _⟩

theorem leads_native (name : Str) (args : List (Value F)) : Leads 1 (callNative name args) (callNative name args) := by
  have say : ∀ text : Str, Leads (F := F) 0 (M.modify fun s => { s with out := s.out ++ text }) (M.modify fun s => { s with out := s.out ++ text }) :=
    fun text => leads_same 0 fun _ => ⟨List.prefix_refl _, List.prefix_append _ _, List.prefix_refl _⟩
  unfold callNative
  simp only [List.append_assoc]
  split
  · exact leads_bind (k := 1) (n := 0) (leads_lift 1 _) fun v => leads_bind (k := 0) (n := 0) (say _) fun _ => leads_closed.pure _
  · split
    · exact leads_bind (k := 1) (n := 0) (leads_lift 1 _) fun v => leads_bind (k := 0) (n := 0) (say _) fun _ => leads_closed.pure _
    · repeat (first | exact leads_lift 1 _ | split)

theorem callAtQuiet_zero (net : Net) : callAtQuiet (F := F) quiet net 0 = callAt net 0 := by
  funext name args s
  unfold callAtQuiet callAt
  rfl

theorem leads_call (net : Net) (name : Str) (args : List (Value F)) : Leads 1 (callAt net 1 name args) (callAtQuiet quiet net 1 name args) := by
  have grow : ∀ s, Ahead s (callAt net 1 name args s).2 ∧ ∀ message asserts, s.ctx.request name = some (message, asserts) →
      Ahead { s with sent := s.sent ++ [render s.ctx message] } (callAt net 1 name args s).2 := by
    intro s
    cases hr : s.ctx.request name with
    | none => exact ⟨by rw [callAt_none net args hr]; exact (leads_native name args).1 s, nofun⟩
    | some p =>
      obtain ⟨message, asserts⟩ := p
      have key : Ahead { s with sent := s.sent ++ [render s.ctx message] } (callAt net 1 name args s).2 := by
        rw [callAt_some net args hr]
        rcases callRequest_cases net 0 name message asserts s with ⟨_, _, _, _, _, _, _, _, _, _, _, h⟩ | ⟨_, h, _⟩ | ⟨_, h, _⟩ <;> rw [h]
        · exact ⟨List.prefix_refl _, List.prefix_append _ _, List.prefix_append _ _⟩
        · exact ⟨List.prefix_refl _, List.prefix_append _ _, List.prefix_refl _⟩
        · exact ⟨List.prefix_refl _, List.prefix_append _ _, List.prefix_refl _⟩
      refine ⟨ahead_trans (t := { s with sent := s.sent ++ [render s.ctx message] }) ⟨List.prefix_append _ _, List.prefix_refl _, List.prefix_refl _⟩ key, fun m a h => ?_⟩
      cases h
      exact key
  refine ⟨fun s => (grow s).1, fun s => ?_⟩
  cases hr : s.ctx.request name with
  | none =>
    left
    rw [callAt_none net args hr]
    unfold callAtQuiet
    rw [hr]
  | some p =>
    obtain ⟨message, asserts⟩ := p
    cases hq : quiet s.sent (render s.ctx message) with
    | false =>
      left
      rw [callAt_some net args hr]
      unfold callAtQuiet
      rw [hr, callAtQuiet_zero]
      dsimp only
      unfold callRequestQuiet callRequest
      rw [M.bind_ok (m := M.get) (s' := s) (a := s) rfl, M.bind_ok (m := M.get) (s' := s) (a := s) rfl, hq]
      rfl
    | true =>
      right
      have : callAtQuiet quiet net 1 name args s = (.hang, { s with sent := s.sent ++ [render s.ctx message] }) := by
        unfold callAtQuiet
        rw [hr]
        dsimp only
        unfold callRequestQuiet
        rw [M.bind_ok (m := M.get) (s' := s) (a := s) rfl, hq]
        rfl
      rw [this]
      exact ⟨rfl, (grow s).2 message asserts hr⟩

theorem leads_block (net : Net) (es : List (Expr F)) : Leads 0 (runBlock net es) (runBlockQuiet quiet net es) :=
  evalBlock_closed leads_closed (leads_call net) es .null (fun n _ v => leads_write n v) (fun _ _ => .inl fun _ => leads_lift 0 _)

/-- Networks that differ only in answers that never come do not differ. -/
theorem quiet_same {net net' : Net} (h : SameBut quiet net net') (es : List (Expr F)) : runBlockQuiet quiet net es = runBlockQuiet quiet net' es := by
  have hsend : ∀ sent m, (if quiet sent m then (.hang : Res (Request × Response × Time × Str)) else send net sent m) =
      if quiet sent m then .hang else send net' sent m := by
    intro sent m
    cases hq : quiet sent m with
    | true => rfl
    | false =>
      simp only [send]
      rw [h.1, h.2 sent m hq]
  have hreq : ∀ (call : Call F) name message asserts, callRequestQuiet quiet net call name message asserts = callRequestQuiet quiet net' call name message asserts := by
    intro call name message asserts
    unfold callRequestQuiet
    simp only [hsend]
  have hcall : ∀ n, callAtQuiet (F := F) quiet net n = callAtQuiet quiet net' n := by
    intro n
    induction n with
    | zero => rfl
    | succ n ih =>
      funext name args s
      unfold callAtQuiet
      rw [ih]
      simp only [hreq]
  unfold runBlockQuiet
  rw [hcall]

/-- C133: a script is run from the same state with two networks that give the same answers except to some exchanges. If none of these exchanges takes place
with the one network, both runs are the same in every respect. Otherwise both runs are the same up to the first of them: both send the messages up to and
including that one and print and record the same before they wait for its answer — that is, what they print and record if that answer never comes. -/
theorem c133_block {apart : List Str → Str → Bool} {net net' : Net} (h : SameBut apart net net') (es : List (Expr F)) (s : St F) (hs : ¬Unanswered apart s.sent) :
    (¬Unanswered apart (runBlock net es s).2.sent → runBlock net' es s = runBlock net es s) ∧
    (Unanswered apart (runBlock net es s).2.sent → ∃ before m, apart before m = true ∧ ¬Unanswered apart before ∧
      (runBlockQuiet apart net es s).2.sent = before ++ [m] ∧ runBlockQuiet apart net' es s = runBlockQuiet apart net es s ∧
      Ahead (runBlockQuiet apart net es s).2 (runBlock net es s).2 ∧ Ahead (runBlockQuiet apart net es s).2 (runBlock net' es s).2) := by
  have he := quiet_same h es
  obtain ⟨h1, h2⟩ := c92_block apart net es s hs
  obtain ⟨h1', h2'⟩ := c92_block apart net' es s hs
  have lead : ∀ n : Net, Ahead (runBlockQuiet apart n es s).2 (runBlock n es s).2 := by
    intro n
    rcases (leads_block (quiet := apart) n es).2 s with k | ⟨_, k⟩
    · rw [k]; exact ahead_refl _
    · exact k
  refine ⟨fun hu => ?_, fun hu => ?_⟩
  · by_cases hu' : Unanswered apart (runBlock net' es s).2.sent
    · obtain ⟨_, _, before, m, k2, k3, _⟩ := h2' hu'
      rw [← he, h1 hu] at k2
      exact absurd ⟨before, m, [], k2, k3⟩ hu
    · rw [← h1 hu, ← h1' hu', he]
  · obtain ⟨_, _, before, m, k2, k3, k4⟩ := h2 hu
    exact ⟨before, m, k3, k4, k2, by rw [he], lead net, by rw [he]; exact lead net'⟩

/-- The messages after the first `n` are those to which the answers may differ. -/
def after (n : Nat) (sent : List Str) (_ : Str) : Bool := decide (n ≤ sent.length)

theorem after_iff {n : Nat} {sent : List Str} : Unanswered (after n) sent ↔ n < sent.length := by
  constructor
  · rintro ⟨before, m, rest, rfl, h⟩
    have : n ≤ before.length := by simpa [after] using h
    simp only [List.length_append, List.length_cons]
    omega
  · intro h
    refine ⟨sent.take n, sent[n], sent.drop (n + 1), by rw [List.getElem_cons_drop, List.take_append_drop], ?_⟩
    simp only [after, List.length_take, decide_eq_true_eq]
    omega

/-- C133: the first `n + 1` messages are the same whatever the answers are after the first `n`, and a run that sends no more than `n` messages is the same in
every respect. -/
theorem c133_first {n : Nat} {net net' : Net} (h : SameUntil n net net') (es : List (Expr F)) (s : St F) (hs : s.sent.length ≤ n) :
    ((runBlock net es s).2.sent.length ≤ n → runBlock net' es s = runBlock net es s) ∧
    (n < (runBlock net es s).2.sent.length → n < (runBlock net' es s).2.sent.length) ∧
    (runBlock net' es s).2.sent.take (n + 1) = (runBlock net es s).2.sent.take (n + 1) := by
  have hb : SameBut (after n) net net' := ⟨h.1, fun sent m hq => h.2 sent m (by simp only [after, decide_eq_false_iff_not] at hq; omega)⟩
  obtain ⟨h1, h2⟩ := c133_block hb es s (by rw [after_iff]; omega)
  rw [after_iff] at h1 h2
  by_cases hn : n < (runBlock net es s).2.sent.length
  · obtain ⟨before, m, k1, k2, k3, _, ⟨⟨r, k4⟩, _⟩, ⟨⟨r', k5⟩, _⟩⟩ := h2 hn
    rw [after_iff] at k2
    have k1 : n ≤ before.length := by simpa [after] using k1
    have hl : before.length = n := by omega
    rw [k3] at k4 k5
    refine ⟨fun h => by omega, fun _ => by rw [← k5]; simp only [List.length_append, List.length_cons, List.length_nil]; omega, ?_⟩
    have cut : ∀ r : List Str, (before ++ [m] ++ r).take (n + 1) = before ++ [m] := by
      intro r
      rw [List.take_append_of_le_length (by simp; omega), List.take_of_length_le (by simp; omega)]
    rw [← k4, ← k5, cut, cut]
  · have := h1 hn
    exact ⟨fun _ => this, fun h => absurd h hn, by rw [this]⟩

/-- C133 for `am eval` and the lines of a session: the first `n + 1` messages are the same whatever the answers are after the first `n`, and an evaluation
that sends no more than `n` messages is the same in every respect. -/
theorem c133_text {n : Nat} {net net' : Net} (h : SameUntil n net net') (text : Str) (s : St F) (hs : s.sent.length ≤ n) :
    ((evalText net text s).2.sent.length ≤ n → evalText net' text s = evalText net text s) ∧
    (evalText net' text s).2.sent.take (n + 1) = (evalText net text s).2.sent.take (n + 1) := by
  cases hp : (parse text : Res (Source F)) with
  | ok src =>
    have key := c133_first h src.exprs { s with ctx := s.ctx.extend src.requests } hs
    rw [evalText_ok s hp, evalText_ok s hp]
    generalize runBlock net src.exprs _ = x at key ⊢
    generalize runBlock net' src.exprs _ = y at key ⊢
    obtain ⟨r, t⟩ := x
    obtain ⟨r', t'⟩ := y
    refine ⟨fun hl => ?_, ?_⟩
    · have hl' : t.sent.length ≤ n := by cases r <;> exact hl
      cases key.1 hl'
      rfl
    · cases r <;> cases r' <;> exact key.2.2
  | _ =>
    unfold evalText
    rw [hp]
    exact ⟨fun _ => rfl, rfl⟩

/-- C133 for a whole session: the first `n + 1` messages are the same whatever the answers are after the first `n`, and a session in which no more than `n` messages
are sent is the same in every respect. -/
theorem c133_session {n : Nat} {net net' : Net} (h : SameUntil n net net') (input : List Input) (s : St F) (hs : s.sent.length ≤ n) :
    ((replLoop net input s).2.sent.length ≤ n → replLoop net' input s = replLoop net input s) ∧
    (replLoop net' input s).2.sent.take (n + 1) = (replLoop net input s).2.sent.take (n + 1) := by
  induction input generalizing s with
  | nil => exact ⟨fun _ => rfl, rfl⟩
  | cons i rest ih =>
    cases i with
    | bad => exact ih s hs
    | line text =>
      unfold replLoop
      by_cases h1 : text = c!"exit"
      · rw [if_pos h1, if_pos h1]; exact ⟨fun _ => rfl, rfl⟩
      · rw [if_neg h1, if_neg h1]
        by_cases h2 : (trim text).isEmpty = true
        · rw [if_pos h2, if_pos h2]; exact ih s hs
        · rw [if_neg h2, if_neg h2]
          obtain ⟨t1, t2⟩ := c133_text h text s hs
          have grown : ∀ m : Net, (evalText m text s).2.sent <+: ((evalText m text >>= fun _ => replLoop m rest) s).2.sent := by
            intro m
            cases hx : evalText m text s with | mk r u =>
            cases r with
            | ok a => rw [M.bind_ok hx]; exact (replLoop_grows m rest u).1
            | err e => rw [M.bind_err hx]; exact List.prefix_rfl
            | panic => rw [M.bind_panic hx]; exact List.prefix_rfl
            | hang => rw [M.bind_hang hx]; exact List.prefix_rfl
          by_cases hn : (evalText net text s).2.sent.length ≤ n
          · have e := t1 hn
            cases hx : evalText net text s with | mk r u =>
            rw [hx] at e hn
            cases r with
            | ok a => rw [M.bind_ok hx, M.bind_ok e]; exact ih u hn
            | err e' => rw [M.bind_err hx, M.bind_err e]; exact ⟨fun _ => rfl, rfl⟩
            | panic => rw [M.bind_panic hx, M.bind_panic e]; exact ⟨fun _ => rfl, rfl⟩
            | hang => rw [M.bind_hang hx, M.bind_hang e]; exact ⟨fun _ => rfl, rfl⟩
          · have hl := congrArg List.length t2
            rw [List.length_take, List.length_take] at hl
            have cut : ∀ {a b : List Str}, a <+: b → n + 1 ≤ a.length → b.take (n + 1) = a.take (n + 1) := by
              rintro a _ ⟨c, rfl⟩ hk
              exact List.take_append_of_le_length hk
            refine ⟨fun hk => absurd (Nat.le_trans (grown net).length_le hk) hn, ?_⟩
            rw [cut (grown net') (by omega), cut (grown net) (by omega), t2]

/-! ## Examples -/

/-- A server that answers the first request always in the same way, and later ones as it likes. -/
def turningNet (e : HttpError) : Net := ⟨fun sent _ => .refused (if sent = [] then .hostNotFound else e) ⟨5, 0, 0, 1, 2, 3, 4, 5, 6, 9⟩, fun _ => none⟩

/-- Concrete case for `c133_first`: two networks that are the same for the first message and differ for the second. -/
example : SameUntil 1 (turningNet .hostNotFound) (turningNet .tcpConnectFailed) ∧
    (turningNet .hostNotFound).exch [c!"x"] c!"y" ≠ (turningNet .tcpConnectFailed).exch [c!"x"] c!"y" :=
  ⟨⟨rfl, fun sent m h => by cases sent with
    | nil => rfl
    | cons a l => simp at h⟩, by decide⟩

/-- The limit is exact: the message after that can depend on the answer. A script sends what it is told by the answer to its first request. -/
theorem c133_exact : ∃ net net', SameUntil 0 net net' ∧
    messages net c!"request a `GET http://a/` request b `GET http://b/{t}` let t = a().body; b()" = [c!"GET http://a/", c!"GET http://b/x"] ∧
    messages net' c!"request a `GET http://a/` request b `GET http://b/{t}` let t = a().body; b()" = [c!"GET http://a/", c!"GET http://b/y"] :=
  ⟨replying c!"HTTP/1.1 200 OK\n\nx", replying c!"HTTP/1.1 200 OK\n\ny", ⟨rfl, fun _ _ h => absurd h (Nat.not_lt_zero _)⟩, c125_reads.1, c125_reads.2⟩

/-- Concrete case for `c133_block`: two networks that are the same except to messages to one host. -/
example : SameBut (fun _ m => m == c!"GET http://b/") deadNet ⟨fun _ m => .refused (if m = c!"GET http://b/" then .tcpConnectFailed else .hostNotFound) ⟨0, 0, 0, 0, 0, 0, 0, 0, 0, 0⟩, fun _ => none⟩ ∧
    (runBlock deadNet [.call c!"a" [], .call c!"b" [], .call c!"a" []] (⟨⟨[], [(c!"a", (c!"GET http://a/", [])), (c!"b", (c!"GET http://b/", []))], []⟩, [], []⟩ : St F)).2.sent =
      [c!"GET http://a/", c!"GET http://b/", c!"GET http://a/"] ∧
    (runBlockQuiet (fun _ m => m == c!"GET http://b/") deadNet [.call c!"a" [], .call c!"b" [], .call c!"a" []]
      (⟨⟨[], [(c!"a", (c!"GET http://a/", [])), (c!"b", (c!"GET http://b/", []))], []⟩, [], []⟩ : St F)).2.sent = [c!"GET http://a/", c!"GET http://b/"] := by
  refine ⟨⟨rfl, fun sent m h => ?_⟩, rfl, rfl⟩
  have : m ≠ c!"GET http://b/" := by simpa using h
  simp only [deadNet, if_neg this]

end Am
