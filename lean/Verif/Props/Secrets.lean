import Verif.Proofs.Secrets
import Verif.Props.Answers
set_option linter.unusedSimpArgs false
/-! # Secrets stay with the requests they are meant for (C132) -/
namespace Am
open Spec
variable {F : Type} [Rt F]
variable {table : List (Str × (Str × List (Expr F)))} {A : Str → Prop} {Γ : Str → Trust} {net net' : Net}

/-- C132: statements that put secrets only into the messages of the requests meant for them, run from two states that differ in the secrets, with networks
in which the other servers do not hear of the secrets and the servers meant for them answer whatever they like. Either both end with a value — with the trust
claimed — or with the same error, and then all messages but those of the requests meant for secrets are the same, the same text was printed and all records
but those of such requests are the same; or one of them crashes or never ends, and what it has sent and printed begins what the other one has sent and
printed, up to the messages of the requests meant for secrets. -/
theorem c132_block (hn : net.multipart = net'.multipart) (hu : Unhearing table A net net') {es : List (Expr F)} {τ : Trust} (h : GuardsBlock table A Γ es τ)
    (s t : St F) (hs : Kept table A Γ s t) :
    (∃ v w, (runBlock net es s).1 = .ok v ∧ (runBlock net' es t).1 = .ok w ∧ Trusted τ v w ∧ Kept table A Γ (runBlock net es s).2 (runBlock net' es t).2) ∨
    (∃ m, (runBlock net es s).1 = .err m ∧ (runBlock net' es t).1 = .err m ∧ Kept table A Γ (runBlock net es s).2 (runBlock net' es t).2) ∨
    (Stopped (runBlock net es s).1 ∧ StillBehind table A (runBlock net es s).2 (runBlock net' es t).2) ∨
    (Stopped (runBlock net' es t).1 ∧ StillBehind table A (runBlock net' es t).2 (runBlock net es s).2) :=
  (guards_block hn hu h .null .null (fun _ => rfl)).step s t hs

theorem each_at {α : Type} {R : α → α → Prop} {l m : List α} (h : Each R l m) : ∀ {i : Nat} {a : α}, l[i]? = some a → ∃ b, m[i]? = some b ∧ R a b := by
  induction h with
  | nil => intro i a h; simp at h
  | cons h _ ih =>
    intro i a hi
    cases i with
    | zero => cases hi; exact ⟨_, rfl, h⟩
    | succ i => exact ih (by simpa using hi)

/-- C132: so a message that is not one of a request meant for secrets is sent as it is in the other run, at the same place. -/
theorem c132_message {sent sent' : List Str} (h : Each (SecretPair table A) sent sent') {i : Nat} {m : Str} (hm : sent[i]? = some m)
    (ho : ∀ f, A f → ¬MessagesOf table f m m) : sent'[i]? = some m := by
  obtain ⟨m', h1, h2⟩ := each_at h hm
  rcases h2 with rfl | ⟨f, hf, message, asserts, ps, g, g', k1, k2, k3, k4⟩
  · exact h1
  · exact absurd ⟨message, asserts, ps, g, g, k1, k2, k3, k3⟩ (ho f hf)

/-- C132: and where no request is meant for secrets, they have no influence at all. -/
theorem c132_none {sent sent' : List Str} (h : Each (SecretPair table (fun _ => False)) sent sent') : sent = sent' := by
  induction h with
  | nil => rfl
  | cons h _ ih =>
    rcases h with rfl | ⟨_, hf, _⟩
    · rw [ih]
    · exact hf.elim

/-- C132 for `am eval` and the lines of a session: a text is evaluated in two states that differ in the secrets. If both evaluations end, all messages but those
of the requests meant for secrets are the same; the same text is printed too if the value of the text, which is printed at the end, is trusted. Otherwise the
evaluation that crashes or never ends has sent and printed the beginning of what the other one has sent and printed. -/
theorem c132_text (hn : net.multipart = net'.multipart) {text : Str} {items : List (Item F)} {τ : Trust} (ht : Accepted text items) (s t : St F)
    (hr : addRequests items s.ctx.requests = table) (hu : Unhearing table A net net') (h : GuardsBlock table A Γ (exprsOf items) τ)
    (hs : ContextKept s.ctx.requests A Γ s.ctx t.ctx) (hsent : Each (SecretPair table A) s.sent t.sent) (hout : s.out = t.out) :
    ((evalText net text s).1 = .ok () ∧ (evalText net' text t).1 = .ok () ∧ Each (SecretPair table A) (evalText net text s).2.sent (evalText net' text t).2.sent ∧
      (τ = .same → (evalText net text s).2.out = (evalText net' text t).2.out) ∧
      Each (KeptRecord A) (evalText net text s).2.ctx.records (evalText net' text t).2.ctx.records) ∨
    (Stopped (evalText net text s).1 ∧ StillBehind table A (evalText net text s).2 (evalText net' text t).2) ∨
    (Stopped (evalText net' text t).1 ∧ StillBehind table A (evalText net' text t).2 (evalText net text s).2) := by
  have hw : Kept table A Γ (withItems s items) (withItems t items) := by
    refine ⟨⟨hr, ?_, hs.variables, hs.records⟩, hsent, hout⟩
    show addRequests items t.ctx.requests = table
    rw [hs.right]; exact hr
  have grow : ∀ (x : Res (Value F) × St F), Behind x.2 (match (motive := _ → Res Unit × St F) x with
      | (.ok v, s) => sayLine v.display s
      | (.err e, s) => sayLine e s
      | (.panic, s) => (.panic, s)
      | (.hang, s) => (.hang, s)).2 := by
    rintro ⟨r, s⟩
    have hp : ∀ m : Str, Behind s (sayLine (F := F) m s).2 := fun m =>
      ⟨List.prefix_refl _, by show s.out <+: s.out ++ m ++ _; rw [List.append_assoc]; exact List.prefix_append _ _⟩
    cases r with
    | ok v => exact hp _
    | err e => exact hp _
    | panic => exact Behind.refl _
    | hang => exact Behind.refl _
  have stop : ∀ (x : Res (Value F) × St F), Stopped x.1 → (match (motive := _ → Res Unit × St F) x with
      | (.ok v, s) => sayLine v.display s
      | (.err e, s) => sayLine e s
      | (.panic, s) => (.panic, s)
      | (.hang, s) => (.hang, s)).2 = x.2 ∧ Stopped (match (motive := _ → Res Unit × St F) x with
      | (.ok v, s) => sayLine v.display s
      | (.err e, s) => sayLine e s
      | (.panic, s) => (.panic, s)
      | (.hang, s) => (.hang, s)).1 := by
    rintro ⟨r, s⟩ (h | h) <;> (dsimp only at h; subst h)
    · exact ⟨rfl, .inl rfl⟩
    · exact ⟨rfl, .inr rfl⟩
  have key := c132_block hn hu h _ _ hw
  rw [evalText_run net ht s, evalText_run net' ht t]
  generalize runBlock net (exprsOf items) (withItems s items) = x at key ⊢
  generalize runBlock net' (exprsOf items) (withItems t items) = y at key ⊢
  rcases key with ⟨v, w, h1, h2, h3, h4⟩ | ⟨m, h1, h2, h4⟩ | ⟨h1, h2⟩ | ⟨h1, h2⟩
  · obtain ⟨r, s1⟩ := x
    obtain ⟨r', t1⟩ := y
    dsimp only at h1 h2 h4
    subst h1 h2
    refine .inl ⟨rfl, rfl, h4.sent, fun hτ => ?_, h4.ctx.records⟩
    subst hτ
    show s1.out ++ v.display ++ _ = t1.out ++ w.display ++ _
    rw [h4.out, show v = w from h3]
  · obtain ⟨r, s1⟩ := x
    obtain ⟨r', t1⟩ := y
    dsimp only at h1 h2 h4
    subst h1 h2
    refine .inl ⟨rfl, rfl, h4.sent, fun _ => ?_, h4.ctx.records⟩
    show s1.out ++ m ++ _ = t1.out ++ m ++ _
    rw [h4.out]
  · obtain ⟨k1, k2⟩ := stop x h1
    have : StillBehind table A x.2 y.2 := h2
    exact .inr (.inl ⟨k2, k1 ▸ this.trans (grow y)⟩)
  · obtain ⟨k1, k2⟩ := stop y h1
    have : StillBehind table A y.2 x.2 := h2
    exact .inr (.inr ⟨k2, k1 ▸ this.trans (grow x)⟩)

/-! ## Tests -/

/-- C132 for a thread of `am test`: two threads execute a test equally often, from contexts that differ in the secrets, and every execution ends with a value.
Every execution prints the same text, and its records are the same but for those of the requests meant for secrets. -/
theorem c132_thread {test : List (Expr F)} {τ : Trust} (h : GuardsBlock table A Γ test τ) {c c' : Context F} :
    ∀ {nets nets' : List Net} {hist hist' : List (Str × List Record)} {base base' : Context F},
    Iterations test base nets hist c → Iterations test base' nets' hist' c' → nets.length = nets'.length →
    (∀ (i : Nat) (m m' : Net), nets[i]? = some m → nets'[i]? = some m' → m.multipart = m'.multipart ∧ Unhearing table A m m') →
    ContextKept table A Γ base base' →
    Each (fun p q => p.1 = q.1 ∧ Each (KeptRecord A) p.2 q.2) hist hist' ∧ ContextKept table A Γ c c'
  | [], [], _, _, _, _, g, g', _, _, hb => by
    obtain ⟨rfl, rfl⟩ := iterations_unique g .nil
    obtain ⟨rfl, rfl⟩ := iterations_unique g' .nil
    exact ⟨.nil, hb⟩
  | [], _ :: _, _, _, _, _, _, _, hl, _, _ => by simp at hl
  | _ :: _, [], _, _, _, _, _, _, hl, _, _ => by simp at hl
  | n :: nets, n' :: nets', _, _, base, base', g, g', hl, hm, hb => by
    obtain ⟨v, s, hist, e1, rfl, e3⟩ := iterations_uncons g n nets rfl
    obtain ⟨v', s', hist', e1', rfl, e3'⟩ := iterations_uncons g' n' nets' rfl
    obtain ⟨m1, m2⟩ := hm 0 n n' rfl rfl
    have key := c132_block m1 m2 h ⟨base, [], []⟩ ⟨base', [], []⟩ ⟨hb, .nil, rfl⟩
    rw [e1, e1'] at key
    rcases key with ⟨_, _, _, _, _, k⟩ | ⟨_, k, _⟩ | ⟨k | k, _⟩ | ⟨k | k, _⟩
    · obtain ⟨i1, i2⟩ := c132_thread h e3 e3' (by simpa using hl) (fun i m m' h1 h2 => hm (i + 1) m m' (by simpa using h1) (by simpa using h2))
        ⟨k.ctx.left, k.ctx.right, k.ctx.variables, .nil⟩
      exact ⟨.cons ⟨k.out, k.ctx.records⟩ i1, i2⟩
    all_goals cases k

/-! ## Examples and counterexamples -/

/-- Trust in the variables of the example: `pw` is a secret, `r` the answer to it, `token` a part of that answer. -/
def secretTrust (x : Str) : Trust := if x = c!"r" then .map else if x = c!"pw" ∨ x = c!"token" then .any else .same

/-- The requests of the example. -/
def secretTable : List (Str × (Str × List (Expr F))) :=
  [(c!"login", (c!"POST http://a/{pw}", [.binary ⟨.Eq, c!"=="⟩ (.ident c!"status") (.int 200)])), (c!"mine", (c!"GET http://a/{token}", [])), (c!"news", (c!"GET http://b/{u}", []))]

/-- `let r = login(); let token = r.body; mine(); let n = news(); println(n.status)` -/
def secretScript : List (Expr F) :=
  [.letE c!"r" (.call c!"login" []), .letE c!"token" (.field (.ident c!"r") c!"body"), .call c!"mine" [], .letE c!"n" (.call c!"news" []),
    .call c!"println" [.field (.ident c!"n") c!"status"]]

/-- Concrete case for C132: a password is sent to one server, the token it answers goes back to it, and another server is asked for news, which are printed. -/
theorem secret_guards : GuardsBlock (F := F) secretTable (fun f => f = c!"login" ∨ f = c!"mine") secretTrust secretScript .same := by
  have hole : ∀ ps x, Pieces c!"GET http://b/{u}" ps → Piece.hole x ∈ ps → secretTrust x = .same := by
    intro ps x hp hx
    have : Pieces c!"GET http://b/{u}" (c!"GET http://b/".map .lit ++ [.hole c!"u"]) := by
      simp only [List.map_cons, List.map_nil, List.cons_append, List.nil_append]
      repeat (first | refine .lit (matchAt_none.1 (by decide +kernel)) ?_)
      exact .hole (h := c!"{u}") (rest := []) ⟨[], [], 'u', [], by decide, by decide, by decide, by decide, by decide, by decide⟩ .nil
    rw [pieces_unique hp this] at hx
    have : x = c!"u" := by simpa using hx
    subst this
    decide
  have hr : Guards (F := F) secretTable (fun f => f = c!"login" ∨ f = c!"mine") secretTrust (.ident c!"r") .map := .ident c!"r"
  have hk : Guards (F := F) secretTable (fun f => f = c!"login" ∨ f = c!"mine") secretTrust (.ident c!"n") .same := .ident c!"n"
  refine .cons _ _ _ (.forget _ _ (.letE c!"r" _ ?_)) (by simp) (.cons _ _ _ (.letE c!"token" _ (.fieldAny _ _ hr)) (by simp) (.cons _ _ _ (.forget _ .map ?_) (by simp)
    (.cons _ _ _ (.forget _ _ (.letE c!"n" _ ?_)) (by simp) (.last _ _ ?_))))
  · exact .meant _ _ _ _ rfl (.inl rfl) (.nil _) (by simp [calledList, called])
  · exact .meant _ _ _ _ rfl (.inr rfl) (.nil _) (by simp [calledList])
  · exact .other _ _ _ _ rfl (by decide) (.nil _) hole
  · exact .native _ _ rfl (.cons _ _ _ (.field _ _ hk) (.nil _))

/-- A network whose first server looks at the password. -/
def lookingNet (pw : Str) : Net :=
  ⟨fun _ m => .refused (if m.head? = some 'P' then if m = c!"POST http://a/" ++ pw then .tcpConnectFailed else .hostNotFound else .hostNotFound)
    ⟨5, 0, 0, 1, 2, 3, 4, 5, 6, 9⟩, fun _ => none⟩

/-- Concrete case for the networks of C132: the server that gets the password answers by it, with different passwords for the two runs. -/
theorem looking_unhearing (pw pw' : Str) : Unhearing (F := F) secretTable (fun f => f = c!"login" ∨ f = c!"mine") (lookingNet pw) (lookingNet pw') := by
  intro sent sent' m f _ hf hm
  obtain ⟨message, asserts, ps, g, g', h1, h2, h3, _⟩ := hm
  have hfn : c!"login" ≠ f ∧ c!"mine" ≠ f := ⟨fun h => hf (.inl h.symm), fun h => hf (.inr h.symm)⟩
  simp only [secretTable, amGet, if_neg hfn.1, if_neg hfn.2] at h1
  split at h1
  · simp only [Option.some.injEq, Prod.mk.injEq] at h1
    obtain ⟨rfl, _⟩ := h1
    have : m.head? = some 'G' := by
      rw [h3]
      generalize hm : c!"GET http://b/{u}" = message at h2
      cases h2 with
      | nil => simp at hm
      | lit _ _ =>
        rw [List.cons.injEq] at hm
        simp [fillBy, ← hm.1]
      | hole h _ =>
        obtain ⟨_, _, _, _, h, _⟩ := h
        rw [h] at hm
        simp at hm
    simp only [lookingNet, this]
    rfl
  · cases h1

/-- Without such a condition secrets can be found out: whether a request is sent tells whether the secret is true. -/
theorem c132_branch : ∃ (net : Net) (es : List (Expr F)) (s t : St F), s.ctx.requests = t.ctx.requests ∧ (∀ x, x ≠ c!"pw" → s.ctx.get x = t.ctx.get x) ∧
    (∀ ps x, Pieces c!"GET http://b/" ps → Piece.hole x ∉ ps) ∧ s.ctx.requests = [(c!"news", (c!"GET http://b/", []))] ∧
    (runBlock net es s).2.sent = [c!"GET http://b/"] ∧ (runBlock net es t).2.sent = [] := by
  refine ⟨deadNet, [.ifE (.ident c!"pw") [.call c!"news" []] []], ⟨⟨[(c!"pw", .bool true)], [(c!"news", (c!"GET http://b/", []))], []⟩, [], []⟩,
    ⟨⟨[(c!"pw", .bool false)], [(c!"news", (c!"GET http://b/", []))], []⟩, [], []⟩, rfl, ?_, ?_, rfl, ?_, rfl⟩
  · intro x hx
    simp [Context.get, amGet, Ne.symm hx]
  · intro ps x hp hx
    have : Pieces c!"GET http://b/" (c!"GET http://b/".map .lit) := by
      simp only [List.map_cons, List.map_nil]
      repeat (first | refine .lit (matchAt_none.1 (by decide +kernel)) ?_)
      exact .nil
    rw [pieces_unique hp this] at hx
    simp at hx
  · rfl

end Am
