import Verif.Props.Swap
/-! # C129: statements whose results nobody uses can be removed -/
set_option linter.unusedSimpArgs false
set_option linter.unusedSectionVars false
namespace Am
open Spec
variable {F : Type} [Rt F]

/-- C129: statements that only compute, have a value where they stand, and set variables that nothing after them reads, can be removed: the script has the
same outcome, sends the same messages, prints the same text and makes the same records, and all other variables end up the same. More must follow, as the
value of a script is that of its last statement. -/
theorem c129_block (net : Net) (before b after : List (Expr F)) (s : St F) (hq : QuietIn s.ctx.requests b)
    (hk : KnownList s.ctx.requests (fun x => x ∉ letsList b) after) (hr : after ≠ [])
    (hok : ∀ v s0, runBlock net before s = (.ok v, s0) → ∃ w, (runBlock net b s0).1 = .ok w) :
    (runBlock net (before ++ (b ++ after)) s).1 = (runBlock net (before ++ after) s).1 ∧
    Alike (fun x => x ∉ letsList b) (runBlock net (before ++ (b ++ after)) s).2 (runBlock net (before ++ after) s).2 := by
  have hreq := c19_requests_fixed net before s
  rcases hp : runBlock net before s with ⟨r, s0⟩
  rw [hp] at hreq
  by_cases hrok : ∃ v, r = .ok v
  rotate_left
  · have e : ∀ rest, runBlock net (before ++ rest) s = (r, s0) := fun rest => evalBlock_stop _ _ _ _ _ _ _ hp fun v h => hrok ⟨v, h⟩
    rw [e, e]
    exact ⟨rfl, rfl, rfl, rfl, rfl, fun _ _ => rfl⟩
  obtain ⟨v, rfl⟩ := hrok
  obtain ⟨w, hw⟩ := hok v s0 hp
  have e : ∀ rest, rest ≠ [] → runBlock net (before ++ rest) s = runBlock net rest s0 := fun rest h =>
    (evalBlock_append _ _ _ _ _ _ _ hp).trans (by rw [evalBlock_acc _ h v .null]; rfl)
  rw [e _ (by simp [hr]), e _ hr]
  have hreq : s0.ctx.requests = s.ctx.requests := hreq
  obtain ⟨⟨inner, table, recs⟩, sent, out⟩ := s0
  change table = _ at hreq
  subst hreq
  obtain ⟨rb, ib, hb⟩ := quiet_block net hq inner
  have hfr := fun x => c17_frame net b (⟨⟨inner, s.ctx.requests, recs⟩, sent, out⟩ : St F) x
  rw [hb] at hw hfr
  dsimp only at hw
  subst hw
  have e2 : runBlock net (b ++ after) (⟨⟨inner, s.ctx.requests, recs⟩, sent, out⟩ : St F) = runBlock net after ⟨⟨ib, s.ctx.requests, recs⟩, sent, out⟩ :=
    (evalBlock_append _ _ _ _ _ _ _ (hb recs sent out)).trans (by rw [evalBlock_acc _ hr w .null]; rfl)
  rw [e2]
  have ha : Alike (fun x => x ∉ letsList b) (⟨⟨ib, s.ctx.requests, recs⟩, sent, out⟩ : St F) ⟨⟨inner, s.ctx.requests, recs⟩, sent, out⟩ :=
    ⟨rfl, rfl, rfl, rfl, fun x hx => hfr x hx⟩
  obtain ⟨h1, h2, _⟩ := c77_block net after _ _ _ ha hk
  exact ⟨h1, h2⟩

/-- C129: a variable that the rest certainly sets again has the same value as well. -/
theorem c129_again (net : Net) (before b after : List (Expr F)) (s : St F) (hq : QuietIn s.ctx.requests b)
    (hk : KnownList s.ctx.requests (fun x => x ∉ letsList b) after) (hr : after ≠ [])
    (hok : ∀ v s0, runBlock net before s = (.ok v, s0) → ∃ w, (runBlock net b s0).1 = .ok w) (v : Value F)
    (hv : (runBlock net (before ++ (b ++ after)) s).1 = .ok v) (x : Str) (hx : x ∈ sureList after) :
    (runBlock net (before ++ (b ++ after)) s).2.ctx.get x = (runBlock net (before ++ after) s).2.ctx.get x := by
  have hreq := c19_requests_fixed net before s
  rcases hp : runBlock net before s with ⟨r, s0⟩
  rw [hp] at hreq
  by_cases hrok : ∃ v, r = .ok v
  rotate_left
  · have e : ∀ rest, runBlock net (before ++ rest) s = (r, s0) := fun rest => evalBlock_stop _ _ _ _ _ _ _ hp fun v h => hrok ⟨v, h⟩
    rw [e, e]
  obtain ⟨v0, rfl⟩ := hrok
  obtain ⟨w, hw⟩ := hok v0 s0 hp
  have e : ∀ rest, rest ≠ [] → runBlock net (before ++ rest) s = runBlock net rest s0 := fun rest h =>
    (evalBlock_append _ _ _ _ _ _ _ hp).trans (by rw [evalBlock_acc _ h v0 .null]; rfl)
  rw [e _ (by simp [hr])] at hv
  rw [e _ (by simp [hr]), e _ hr]
  have hreq : s0.ctx.requests = s.ctx.requests := hreq
  obtain ⟨⟨inner, table, recs⟩, sent, out⟩ := s0
  change table = _ at hreq
  subst hreq
  obtain ⟨rb, ib, hb⟩ := quiet_block net hq inner
  have hfr := fun x => c17_frame net b (⟨⟨inner, s.ctx.requests, recs⟩, sent, out⟩ : St F) x
  rw [hb] at hw hfr
  dsimp only at hw
  subst hw
  have e2 : runBlock net (b ++ after) (⟨⟨inner, s.ctx.requests, recs⟩, sent, out⟩ : St F) = runBlock net after ⟨⟨ib, s.ctx.requests, recs⟩, sent, out⟩ :=
    (evalBlock_append _ _ _ _ _ _ _ (hb recs sent out)).trans (by rw [evalBlock_acc _ hr w .null]; rfl)
  rw [e2] at hv ⊢
  have ha : Alike (fun x => x ∉ letsList b) (⟨⟨ib, s.ctx.requests, recs⟩, sent, out⟩ : St F) ⟨⟨inner, s.ctx.requests, recs⟩, sent, out⟩ :=
    ⟨rfl, rfl, rfl, rfl, fun x hx => hfr x hx⟩
  exact ((c77_block net after _ _ _ ha hk).2.2 v hv).vars x (.inr hx)

/-- C129: the same for `am eval` on two texts of which one lacks the statements. -/
theorem c129_text (net : Net) {text text' : Str} {before after : List (Item F)} {b : List (Expr F)} (s : St F)
    (h1 : Accepted text (before ++ (b.map .expr ++ after))) (h2 : Accepted text' (before ++ after))
    (hq : QuietIn (addRequests (before ++ after) s.ctx.requests) b)
    (hk : KnownList (addRequests (before ++ after) s.ctx.requests) (fun x => x ∉ letsList b) (exprsOf after)) (hr : exprsOf after ≠ [])
    (hok : ∀ v s0, runBlock net (exprsOf before) (withItems s (before ++ after)) = (.ok v, s0) → ∃ w, (runBlock net b s0).1 = .ok w) :
    (evalText net text s).1 = (evalText net text' s).1 ∧ Alike (fun x => x ∉ letsList b) (evalText net text s).2 (evalText net text' s).2 := by
  have hx : exprsOf (before ++ (b.map Item.expr ++ after)) = exprsOf before ++ (b ++ exprsOf after) ∧
      withItems s (before ++ (b.map Item.expr ++ after)) = withItems s (before ++ after) := by
    constructor
    · simp only [exprsOf_append, exprsOf_exprs]
    · unfold withItems
      simp only [addRequests_append, addRequests_exprs]
  rw [evalText_run net h1, evalText_run net h2, hx.1, hx.2, exprsOf_append]
  obtain ⟨g1, g2⟩ := c129_block net (exprsOf before) b (exprsOf after) (withItems s (before ++ after)) hq hk hr hok
  rcases hx1 : runBlock net (exprsOf before ++ (b ++ exprsOf after)) (withItems s (before ++ after)) with ⟨r, t⟩
  rcases hx2 : runBlock net (exprsOf before ++ exprsOf after) (withItems s (before ++ after)) with ⟨r', t'⟩
  rw [hx1, hx2] at g1 g2
  dsimp only at g1 g2
  subst g1
  cases r with
  | ok v => exact ⟨rfl, g2.requests, g2.records, g2.sent, congrArg (fun o => o ++ v.display ++ c!"\n") g2.out, g2.vars⟩
  | err e => exact ⟨rfl, g2.requests, g2.records, g2.sent, congrArg (fun o => o ++ e ++ c!"\n") g2.out, g2.vars⟩
  | panic => exact ⟨rfl, g2⟩
  | hang => exact ⟨rfl, g2⟩

/-- Concrete case: a sum that nothing reads, between printing and a request. -/
example (net : Net) : ∃ w, (runBlock net [.letE c!"unused" (.call c!"length" [.str c!"abc"])] (⟨⟨[], [(c!"g", (c!"GET http://h/", []))], []⟩, [], []⟩ : St F)).1 = .ok w ∧
    QuietIn [(c!"g", (c!"GET http://h/", ([] : List (Expr F))))] [.letE c!"unused" (.call c!"length" [.str c!"abc"])] := by
  refine ⟨_, rfl, fun f hf => ?_⟩
  have : f = c!"length" := by simpa [calledList, called] using hf
  subst this
  exact ⟨rfl, by decide, by decide⟩

/-- C129: each condition is needed: the statements must have a value, must not print, and nothing may read what they set. -/
theorem c129_needed (net : Net) :
    (runBlock net [.ident c!"x", .int 1] (⟨Context.new, [], []⟩ : St F)).1 = .err c!"ident:x not found" ∧
    (runBlock net [.int 1] (⟨Context.new, [], []⟩ : St F)).1 = .ok (.int 1) ∧
    (runBlock net [.call c!"print" [.str c!"a"], .int 1] (⟨Context.new, [], []⟩ : St F)).2.out = c!"a" ∧
    (runBlock net [.int 1] (⟨Context.new, [], []⟩ : St F)).2.out = [] ∧
    (runBlock net [.letE c!"x" (.int 1), .letE c!"x" (.int 2), .ident c!"x"] (⟨Context.new, [], []⟩ : St F)).1 = .ok (.int 2) ∧
    (runBlock net [.letE c!"x" (.int 1), .ident c!"x"] (⟨Context.new, [], []⟩ : St F)).1 = .ok (.int 1) :=
  ⟨rfl, rfl, rfl, rfl, rfl, rfl⟩

end Am
