import Verif.Spec.Command
import Verif.Proofs.Decimal
import Verif.Proofs.Text
import Verif.Proofs.Message
import Verif.Proofs.Maps
import Verif.Props.Evaluating
import Verif.Props.Parsing
import Verif.Props.Values
/-!
# The command line: C54 to C57
-/
set_option linter.unusedSimpArgs false
set_option linter.unusedSectionVars false
namespace Am
open Spec
variable {F : Type} [Rt F]

/-! ## C54 -/

theorem blank_iff {t : Str} : (trim t).isEmpty = true ↔ Blank t := isEmpty_trim

theorem evalText_err {net : Net} {t e : Str} (s : St F) (h : (parse t : Res (Source F)) = .err e) :
    evalText net t s = (.ok (), { s with out := s.out ++ e ++ c!"\n" }) := by
  simp only [evalText, h]
  rfl

theorem evalText_ok {net : Net} {t : Str} {src : Source F} (s : St F) (h : (parse t : Res (Source F)) = .ok src) :
    evalText net t s = match runBlock net src.exprs { s with ctx := s.ctx.extend src.requests } with
      | (.ok v, s) => sayLine v.display s
      | (.err e, s) => sayLine e s
      | (.panic, s) => (.panic, s)
      | (.hang, s) => (.hang, s) := by
  unfold evalText
  rw [h]
  rfl

theorem evalText_value {net : Net} {t : Str} {src : Source F} {v : Value F} {s s1 : St F} (h : (parse t : Res (Source F)) = .ok src)
    (hr : runBlock net src.exprs { s with ctx := s.ctx.extend src.requests } = (.ok v, s1)) :
    evalText net t s = (.ok (), { s1 with out := s1.out ++ v.display ++ c!"\n" }) := by
  rw [evalText_ok s h, hr]
  rfl

theorem evalText_failed {net : Net} {t : Str} {src : Source F} {e : Str} {s s1 : St F} (h : (parse t : Res (Source F)) = .ok src)
    (hr : runBlock net src.exprs { s with ctx := s.ctx.extend src.requests } = (.err e, s1)) :
    evalText net t s = (.ok (), { s1 with out := s1.out ++ e ++ c!"\n" }) := by
  rw [evalText_ok s h, hr]
  rfl

theorem replLoop_line {net : Net} {t : Str} {rest : List Input} {s s1 : St F} (h1 : t ≠ c!"exit") (h2 : ¬ Blank t) (h : evalText net t s = (.ok (), s1)) :
    replLoop net (.line t :: rest) s = replLoop net rest s1 := by
  rw [replLoop, if_neg h1, if_neg (fun hb => h2 (blank_iff.1 hb))]
  exact M.bind_ok h

/-- C54: the REPL handles lines one after the other, each in the state the previous ones left. -/
theorem c54_session (net : Net) (lines rest : List Input) (s s' : St F) (h : Session net s lines s') :
    replLoop net (lines ++ rest) s = replLoop net rest s' := by
  induction h with
  | nil s => rfl
  | bad _ ih => exact ih
  | @blank s s' t r hb _ ih =>
    rw [List.cons_append, replLoop, if_neg (fun he => by subst he; exact absurd (hb 'e' (by simp)) (by decide)), if_pos (blank_iff.2 hb)]
    exact ih
  | unparsed h1 h2 h3 _ ih => exact (replLoop_line h1 h2 (evalText_err _ h3)).trans ih
  | value h1 h2 h3 h4 _ ih => exact (replLoop_line h1 h2 (evalText_value h3 h4)).trans ih
  | failed h1 h2 h3 h4 _ ih => exact (replLoop_line h1 h2 (evalText_failed h3 h4)).trans ih

/-- C54: every sequence of lines without `exit` is handled to its end, unless some line panics or never returns (C06, C14). -/
theorem c54_survives (net : Net) (lines : List Input) (s : St F) (hx : Input.line c!"exit" ∉ lines) :
    (∃ s', Session net s lines s') ∨
    ∃ before t after s1, lines = before ++ .line t :: after ∧ Session net s before s1 ∧ ¬ Blank t ∧
      ((parse t : Res (Source F)) = .panic ∨ (parse t : Res (Source F)) = .hang ∨
       ∃ src, (parse t : Res (Source F)) = .ok src ∧
        ((runBlock net src.exprs { s1 with ctx := s1.ctx.extend src.requests }).1 = .panic ∨
         (runBlock net src.exprs { s1 with ctx := s1.ctx.extend src.requests }).1 = .hang)) := by
  induction lines generalizing s with
  | nil => exact Or.inl ⟨s, .nil s⟩
  | cons x lines ih =>
    have hl : Input.line c!"exit" ∉ lines := fun h => hx (List.mem_cons_of_mem _ h)
    have lift : ∀ (t : Input) (s1 : St F), (∀ {ls s'}, Session net s1 ls s' → Session net s (t :: ls) s') →
        ((∃ s', Session net s1 lines s') ∨ ∃ before t after s2, lines = before ++ .line t :: after ∧ Session net s1 before s2 ∧ ¬ Blank t ∧
          ((parse t : Res (Source F)) = .panic ∨ (parse t : Res (Source F)) = .hang ∨
           ∃ src, (parse t : Res (Source F)) = .ok src ∧
            ((runBlock net src.exprs { s2 with ctx := s2.ctx.extend src.requests }).1 = .panic ∨
             (runBlock net src.exprs { s2 with ctx := s2.ctx.extend src.requests }).1 = .hang))) →
        (∃ s', Session net s (t :: lines) s') ∨ ∃ before t' after s2, t :: lines = before ++ .line t' :: after ∧ Session net s before s2 ∧ ¬ Blank t' ∧
          ((parse t' : Res (Source F)) = .panic ∨ (parse t' : Res (Source F)) = .hang ∨
           ∃ src, (parse t' : Res (Source F)) = .ok src ∧
            ((runBlock net src.exprs { s2 with ctx := s2.ctx.extend src.requests }).1 = .panic ∨
             (runBlock net src.exprs { s2 with ctx := s2.ctx.extend src.requests }).1 = .hang)) := by
      intro t s1 hstep h
      rcases h with ⟨s', h⟩ | ⟨before, t', after, s2, e, h, hbad⟩
      · exact Or.inl ⟨s', hstep h⟩
      · exact Or.inr ⟨t :: before, t', after, s2, by rw [e]; rfl, hstep h, hbad⟩
    cases x with
    | bad => exact lift .bad s (fun h => .bad h) (ih s hl)
    | line t =>
      have ht : t ≠ c!"exit" := fun he => hx (by rw [he]; exact List.mem_cons_self)
      by_cases hb : Blank t
      · exact lift (.line t) s (fun h => .blank hb h) (ih s hl)
      · match hp : (parse t : Res (Source F)) with
        | .err e => exact lift (.line t) _ (fun h => .unparsed ht hb hp h) (ih _ hl)
        | .panic => exact Or.inr ⟨[], t, lines, s, rfl, .nil s, hb, Or.inl hp⟩
        | .hang => exact Or.inr ⟨[], t, lines, s, rfl, .nil s, hb, Or.inr (Or.inl hp)⟩
        | .ok src =>
          match hr : runBlock net src.exprs { s with ctx := s.ctx.extend src.requests } with
          | (.ok v, s1) => exact lift (.line t) _ (fun h => .value ht hb hp hr h) (ih _ hl)
          | (.err e, s1) => exact lift (.line t) _ (fun h => .failed ht hb hp hr h) (ih _ hl)
          | (.panic, s1) => exact Or.inr ⟨[], t, lines, s, rfl, .nil s, hb, Or.inr (Or.inr ⟨src, hp, Or.inl (by rw [hr])⟩)⟩
          | (.hang, s1) => exact Or.inr ⟨[], t, lines, s, rfl, .nil s, hb, Or.inr (Or.inr ⟨src, hp, Or.inr (by rw [hr])⟩)⟩

/-- The line assigns the variable. -/
def Assigns (F : Type) [Rt F] (x : Str) : Input → Prop
  | .line t => ∃ src : Source F, parse t = .ok src ∧ x ∈ letsList src.exprs
  | .bad => False

/-- The line declares the request. -/
def Declares (F : Type) [Rt F] (n : Str) : Input → Prop
  | .line t => ∃ src : Source F, parse t = .ok src ∧ amGet n src.requests ≠ none
  | .bad => False

/-- C54: a variable keeps its value across every sequence of lines that does not assign it, whether they succeed, fail or do not parse. -/
theorem c54_variable_kept (net : Net) (lines : List Input) (s s' : St F) (h : Session net s lines s') (x : Str) (hx : ∀ l ∈ lines, ¬ Assigns F x l) :
    s'.ctx.get x = s.ctx.get x := by
  induction h with
  | nil s => rfl
  | bad _ ih => exact ih fun l hl => hx l (List.mem_cons_of_mem _ hl)
  | blank _ _ ih => exact ih fun l hl => hx l (List.mem_cons_of_mem _ hl)
  | unparsed _ _ _ _ ih => exact ih fun l hl => hx l (List.mem_cons_of_mem _ hl)
  | @value s s1 s' t src v rest h1 h2 h3 h4 _ ih =>
    rw [ih fun l hl => hx l (List.mem_cons_of_mem _ hl)]
    have := c17_frame net src.exprs { s with ctx := s.ctx.extend src.requests } x fun hm => hx _ List.mem_cons_self ⟨src, h3, hm⟩
    rw [h4] at this
    exact this
  | @failed s s1 s' t src e rest h1 h2 h3 h4 _ ih =>
    rw [ih fun l hl => hx l (List.mem_cons_of_mem _ hl)]
    have := c17_frame net src.exprs { s with ctx := s.ctx.extend src.requests } x fun hm => hx _ List.mem_cons_self ⟨src, h3, hm⟩
    rw [h4] at this
    exact this

theorem extend_request (c : Context F) {t : Str} {src : Source F} (h : parse t = .ok src) (n : Str) :
    (c.extend src.requests).request n = (amGet n src.requests).or (c.request n) := by
  obtain ⟨_, _, _, _, _, hn, _⟩ := c12_tables t src h
  exact amGet_extend n _ _ hn

/-- C54: a request keeps its definition across every sequence of lines that does not declare it again. -/
theorem c54_request_kept (net : Net) (lines : List Input) (s s' : St F) (h : Session net s lines s') (n : Str) (hx : ∀ l ∈ lines, ¬ Declares F n l) :
    s'.ctx.request n = s.ctx.request n := by
  have one : ∀ {s s1 : St F} {t : Str} {src : Source F} {r : Res (Value F)}, parse t = .ok src → ¬ Declares F n (.line t) →
      runBlock net src.exprs { s with ctx := s.ctx.extend src.requests } = (r, s1) → s1.ctx.request n = s.ctx.request n := by
    intro s s1 t src r hp hd hr
    have h1 := c19_requests_fixed net src.exprs { s with ctx := s.ctx.extend src.requests }
    rw [hr] at h1
    have h2 := extend_request s.ctx hp n
    have h3 : amGet n src.requests = none := Classical.byContradiction fun hne => hd ⟨src, hp, hne⟩
    rw [h3, Option.none_or] at h2
    rw [← h2]
    unfold Context.request
    rw [h1]
  induction h with
  | nil s => rfl
  | bad _ ih => exact ih fun l hl => hx l (List.mem_cons_of_mem _ hl)
  | blank _ _ ih => exact ih fun l hl => hx l (List.mem_cons_of_mem _ hl)
  | unparsed _ _ _ _ ih => exact ih fun l hl => hx l (List.mem_cons_of_mem _ hl)
  | @value s s1 s' t src v rest h1 h2 h3 h4 _ ih =>
    rw [ih fun l hl => hx l (List.mem_cons_of_mem _ hl)]
    exact one (s1 := s1) h3 (hx _ List.mem_cons_self) h4
  | @failed s s1 s' t src e rest h1 h2 h3 h4 _ ih =>
    rw [ih fun l hl => hx l (List.mem_cons_of_mem _ hl)]
    exact one (s1 := s1) h3 (hx _ List.mem_cons_self) h4

/-- C54: what a line declares is there afterwards, also when its expressions fail: each of its requests, and the variables as its evaluation left
them. -/
theorem c54_line (net : Net) (t : Str) (src : Source F) (s s' : St F) (hb : ¬ Blank t) (hp : parse t = .ok src) (h : Session net s [.line t] s') :
    (∀ n d, amGet n src.requests = some d → s'.ctx.request n = some d) ∧
    s'.ctx = (runBlock net src.exprs { s with ctx := s.ctx.extend src.requests }).2.ctx ∧
    s'.sent = (runBlock net src.exprs { s with ctx := s.ctx.extend src.requests }).2.sent := by
  have key : s'.ctx = (runBlock net src.exprs { s with ctx := s.ctx.extend src.requests }).2.ctx ∧
      s'.sent = (runBlock net src.exprs { s with ctx := s.ctx.extend src.requests }).2.sent := by
    generalize hl : [Input.line t] = ls at h
    cases h with
    | nil => cases hl
    | bad _ => cases hl
    | blank hb' _ => cases hl; exact absurd hb' hb
    | unparsed _ _ he _ => cases hl; rw [hp] at he; cases he
    | value _ _ hp' hr hrest =>
      cases hl
      rw [hp] at hp'
      cases hp'
      cases hrest
      rw [hr]
      exact ⟨rfl, rfl⟩
    | failed _ _ hp' hr hrest =>
      cases hl
      rw [hp] at hp'
      cases hp'
      cases hrest
      rw [hr]
      exact ⟨rfl, rfl⟩
  refine ⟨?_, key⟩
  intro n d hd
  have h1 := c19_requests_fixed net src.exprs { s with ctx := s.ctx.extend src.requests }
  have h2 := extend_request s.ctx hp n
  rw [hd, Option.some_or] at h2
  rw [key.1, ← h2]
  unfold Context.request
  rw [h1]

/-- C54: a line that does not parse changes no variable and no request and sends nothing; it prints the message. -/
theorem c54_unparsed (net : Net) (t e : Str) (s : St F) (hp : (parse t : Res (Source F)) = .err e) :
    evalText net t s = (.ok (), ⟨s.ctx, s.sent, s.out ++ e ++ c!"\n"⟩) := evalText_err s hp

/-- C54: a line that fails at some expression keeps the effects of the expressions before it. -/
theorem c54_failure_keeps (net : Net) (t : Str) (before rest : List (Expr F)) (x : Expr F) (requests : List (Str × (Str × List (Expr F))))
    (tests : List (Str × List (Expr F))) (e : Str) (s s1 s2 : St F) (v : Value F) (hp : parse t = .ok ⟨before ++ x :: rest, requests, tests⟩)
    (h1 : runBlock net before { s with ctx := s.ctx.extend requests } = (.ok v, s1)) (h2 : eval net x s1 = (.err e, s2)) :
    evalText net t s = (.ok (), { s2 with out := s2.out ++ e ++ c!"\n" }) :=
  evalText_failed hp (c18_first_error net before rest x _ s1 s2 v (.err e) h1 h2 (by intro w h; cases h))

/-- Concrete case: a variable set on the first line is read on the fourth, after a line that does not parse and one that fails. -/
example (net : Net) : ∃ s' : St F, Session net ⟨Context.new, [], []⟩ [.line c!"let x = 7", .line c!"let", .line c!"y", .line c!" ", .line c!"x"] s' ∧
    s'.ctx.get c!"x" = some (.int 7) ∧ s'.out.drop (s'.out.length - 2) = c!"7\n" := by
  have hs : ∀ t : Str, 'x' ∈ t ∨ 'y' ∈ t ∨ 'l' ∈ t → ¬ Blank t := by
    intro t h hb
    rcases h with h | h | h <;> exact absurd (hb _ h) (by decide)
  exact ⟨_, .value (v := .int 7) (by decide) (hs _ (by simp)) rfl rfl (.unparsed (by decide) (hs _ (by simp)) rfl (.failed (by decide) (hs _ (by simp)) rfl rfl
    (.blank (by intro c hc; simp at hc; subst hc; rfl) (.value (v := .int 7) (by decide) (hs _ (by simp)) rfl rfl (.nil _))))), rfl, rfl⟩

/-! ## C55 -/

/-- C55, first half: the REPL returns at the first `exit` line (missing: the end of the input, see `c55_false`). -/
theorem c55_exit_partial (net : Net) (lines rest : List Input) (s s' : St F) (h : Session net s lines s') :
    replLoop net (lines ++ .line c!"exit" :: rest) s = (.ok (), s') := by
  rw [c54_session net lines _ s s' h, replLoop, if_pos rfl]
  rfl

/-- C55 is false: without an `exit` line the REPL never returns, whatever the lines are. -/
theorem c55_false (net : Net) (lines : List Input) (s : St F) (hx : Input.line c!"exit" ∉ lines) :
    (replLoop net lines s).1 = .hang ∨ (replLoop net lines s).1 = .panic := by
  rcases c54_survives net lines s hx with ⟨s', h⟩ | ⟨before, t, after, s1, rfl, h, hnb, hbad⟩
  · have := c54_session net lines [] s s' h
    rw [List.append_nil] at this
    rw [this]
    exact Or.inl rfl
  · rw [c54_session net before _ s s1 h]
    have ht : t ≠ c!"exit" := fun he => hx (by rw [he]; simp)
    rw [replLoop, if_neg ht]
    rw [if_neg fun hb => hnb (blank_iff.1 hb)]
    rcases hbad with hp | hp | ⟨src, hp, hr⟩
    · right
      have : evalText net t s1 = (.panic, s1) := by simp only [evalText, hp]; rfl
      rw [show ((evalText net t >>= fun _ => replLoop net after) : M F Unit) s1 = (.panic, s1) from M.bind_panic this]
    · left
      have : evalText net t s1 = (.hang, s1) := by simp only [evalText, hp]; rfl
      rw [show ((evalText net t >>= fun _ => replLoop net after) : M F Unit) s1 = (.hang, s1) from M.bind_hang this]
    · have he := evalText_ok (net := net) s1 hp
      match hrun : runBlock net src.exprs { s1 with ctx := s1.ctx.extend src.requests } with
      | (.ok v, s2) => rw [hrun] at hr; rcases hr with hr | hr <;> cases hr
      | (.err v, s2) => rw [hrun] at hr; rcases hr with hr | hr <;> cases hr
      | (.panic, s2) =>
        rw [hrun] at he
        right
        rw [show ((evalText net t >>= fun _ => replLoop net after) : M F Unit) s1 = (.panic, s2) from M.bind_panic he]
      | (.hang, s2) =>
        rw [hrun] at he
        left
        rw [show ((evalText net t >>= fun _ => replLoop net after) : M F Unit) s1 = (.hang, s2) from M.bind_hang he]

/-- In particular the REPL never ends on an empty input. -/
theorem c55_false_empty (net : Net) (sent : List Str) (out : Str) : (repl (F := F) net [] sent out).1 = .hang := rfl

/-! ## C56 -/

theorem dropLast_concat {α : Type} (l : List α) (a : α) : (l ++ [a]).dropLast = l := by simp

theorem last_concat {α : Type} (l : List α) (a : α) : (l ++ [a]).getLast? = some a := by simp

theorem split_last {α : Type} (l : List α) (h : l ≠ []) : ∃ a, l.getLast? = some a ∧ l = l.dropLast ++ [a] :=
  ⟨l.getLast h, List.getLast?_eq_some_getLast h, (List.dropLast_concat_getLast h).symm⟩

theorem u64Mul_cases (a b : Nat) : u64Mul F a b = .ok (a * b) ∧ a * b < 2 ^ 64 ∨ 2 ^ 64 ≤ a * b ∧ Rt.checks F = true ∧ u64Mul F a b = .panic ∨
    2 ^ 64 ≤ a * b ∧ Rt.checks F = false ∧ u64Mul F a b = .ok (a * b % 2 ^ 64) := by
  unfold u64Mul
  by_cases h : a * b < 2 ^ 64
  · rw [if_pos h]; exact Or.inl ⟨rfl, h⟩
  · rw [if_neg h]
    cases hc : Rt.checks F
    · exact Or.inr (Or.inr ⟨by omega, rfl, rfl⟩)
    · exact Or.inr (Or.inl ⟨by omega, rfl, rfl⟩)

/-- C56, as far as it holds: digits followed by a unit denote that many units, when the seconds fit in 64 bits (missing: larger durations, see
`c56_false_overflow`, and the rejection of a leading `+`, see `c56_false_plus`). -/
theorem c56_value_partial (ds : Str) (u : Char) (k : Nat) (hne : ds ≠ []) (hd : ∀ c ∈ ds, isDigit c = true) (hu : unitSeconds u = some k)
    (hb : decimal ds * k < 2 ^ 64) : parseDuration F (ds ++ [u]) = .ok (decimal ds * k) := by
  have hk : 1 ≤ k := by
    unfold unitSeconds at hu
    split at hu <;> simp at hu <;> omega
  have hle : decimal ds ≤ 2 ^ 64 - 1 := by
    have : decimal ds * 1 ≤ decimal ds * k := Nat.mul_le_mul_left _ hk
    omega
  unfold parseDuration
  rw [dropLast_concat, last_concat, parseUnsigned_digits _ hne hd, if_pos hle]
  unfold unitSeconds at hu
  split at hu <;> simp at hu <;> subst hu
  · simp
  · simp only [u64Mul, if_pos hb]
  · simp only [u64Mul, if_pos hb]

/-- C56, as far as it holds: whatever is accepted is an optional `+`, digits and one of the three units, and its value is the product modulo
2^64. -/
theorem c56_accepted_partial (s : Str) (v : Nat) (h : parseDuration F s = .ok v) :
    ∃ ds u k, (s = ds ++ [u] ∨ s = '+' :: ds ++ [u]) ∧ ds ≠ [] ∧ (∀ c ∈ ds, isDigit c = true) ∧ unitSeconds u = some k ∧ v = decimal ds * k % 2 ^ 64 := by
  unfold parseDuration at h
  match hp : parseUnsigned (2 ^ 64 - 1) s.dropLast with
  | none => rw [hp] at h; cases h
  | some n =>
    rw [hp] at h
    dsimp only at h
    obtain ⟨ds, hs, hne, hd, hn, hle⟩ := parseUnsigned_some hp
    have hsne : s ≠ [] := by
      rintro rfl
      rcases hs with hs | hs
      · exact hne (by simpa using hs.symm)
      · cases hs
    obtain ⟨u, hl, hs'⟩ := split_last s hsne
    rw [hl] at h
    have hmod : ∀ k, u64Mul F n k = .ok v → v = decimal ds * k % 2 ^ 64 := by
      intro k hk
      rcases u64Mul_cases (F := F) n k with ⟨e, hb⟩ | ⟨_, _, e⟩ | ⟨_, _, e⟩
      · rw [e] at hk; cases hk; rw [← hn, Nat.mod_eq_of_lt hb]
      · rw [e] at hk; cases hk
      · rw [e] at hk; cases hk; rw [← hn]
    have hform : s = ds ++ [u] ∨ s = '+' :: ds ++ [u] := by
      rcases hs with hs | hs
      · left; rw [hs', hs]
      · right; rw [hs', hs]
    split at h
    · rename_i heq
      cases heq
      cases h
      exact ⟨ds, 's', 1, hform, hne, hd, rfl, by rw [← hn, Nat.mul_one, Nat.mod_eq_of_lt (by omega)]⟩
    · rename_i heq
      cases heq
      exact ⟨ds, 'm', 60, hform, hne, hd, rfl, hmod _ h⟩
    · rename_i heq
      cases heq
      exact ⟨ds, 'h', 3600, hform, hne, hd, rfl, hmod _ h⟩
    · cases h
    · cases h

/-- C56: everything else is rejected with one of two messages: without panicking, unless it is digits and a unit whose product overflows. -/
theorem c56_rejected (s : Str) : (∃ v, parseDuration F s = .ok v) ∨ parseDuration F s = .err (c!"Invalid number: " ++ s.dropLast) ∨
    (∃ c, s.getLast? = some c ∧ unitSeconds c = none ∧ parseDuration F s = .err (c!"Unknown time unit: " ++ [c] ++ c!", supported units: s, m, h")) ∨
    (parseDuration F s = .panic ∧ Rt.checks F = true ∧
      ∃ ds u k, (s = ds ++ [u] ∨ s = '+' :: ds ++ [u]) ∧ (∀ c ∈ ds, isDigit c = true) ∧ unitSeconds u = some k ∧ 2 ^ 64 ≤ decimal ds * k) := by
  match hp : parseUnsigned (2 ^ 64 - 1) s.dropLast with
  | none => right; left; unfold parseDuration; rw [hp]
  | some n =>
    obtain ⟨ds, hs, hne, hd, hn, hle⟩ := parseUnsigned_some hp
    have hsne : s ≠ [] := by
      rintro rfl
      rcases hs with hs | hs
      · exact hne (by simpa using hs.symm)
      · cases hs
    obtain ⟨u, hl, hs'⟩ := split_last s hsne
    have hform : s = ds ++ [u] ∨ s = '+' :: ds ++ [u] := by
      rcases hs with hs | hs
      · left; rw [hs', hs]
      · right; rw [hs', hs]
    have mul : ∀ k, unitSeconds u = some k → parseDuration F s = u64Mul F n k → (∃ v, parseDuration F s = .ok v) ∨
        (parseDuration F s = .panic ∧ Rt.checks F = true ∧
          ∃ ds u k, (s = ds ++ [u] ∨ s = '+' :: ds ++ [u]) ∧ (∀ c ∈ ds, isDigit c = true) ∧ unitSeconds u = some k ∧ 2 ^ 64 ≤ decimal ds * k) := by
      intro k hu hk
      rcases u64Mul_cases (F := F) n k with ⟨e, hb⟩ | ⟨h1, h2, e⟩ | ⟨_, _, e⟩
      · exact Or.inl ⟨_, hk.trans e⟩
      · exact Or.inr ⟨hk.trans e, h2, ds, u, k, hform, hd, hu, by rw [← hn]; exact h1⟩
      · exact Or.inl ⟨_, hk.trans e⟩
    by_cases h1 : u = 's'
    · subst h1; left; exact ⟨n, by unfold parseDuration; rw [hp, hl]; rfl⟩
    · by_cases h2 : u = 'm'
      · subst h2
        rcases mul 60 rfl (by unfold parseDuration; rw [hp, hl]; rfl) with h | h
        · exact Or.inl h
        · exact Or.inr (Or.inr (Or.inr h))
      · by_cases h3 : u = 'h'
        · subst h3
          rcases mul 3600 rfl (by unfold parseDuration; rw [hp, hl]; rfl) with h | h
          · exact Or.inl h
          · exact Or.inr (Or.inr (Or.inr h))
        · right; right; left
          refine ⟨u, hl, ?_, ?_⟩
          · unfold unitSeconds
            split <;> first | rfl | contradiction
          · unfold parseDuration
            rw [hp, hl]
            dsimp only
            split <;> rename_i heq <;> cases heq <;> first | rfl | contradiction

/-- C56: a text without digits before its last character is always rejected, in particular a bare number or the empty text. -/
theorem c56_rejects_other (s : Str) (h : ¬ ∃ ds u k, (s = ds ++ [u] ∨ s = '+' :: ds ++ [u]) ∧ ds ≠ [] ∧ (∀ c ∈ ds, isDigit c = true) ∧ unitSeconds u = some k) :
    ∃ m, parseDuration F s = .err m := by
  rcases c56_rejected (F := F) s with ⟨v, hv⟩ | hm | ⟨c, _, _, hm⟩ | ⟨hm, _⟩
  · obtain ⟨ds, u, k, h1, h2, h3, h4, _⟩ := c56_accepted_partial s v hv
    exact absurd ⟨ds, u, k, h1, h2, h3, h4⟩ h
  · exact ⟨_, hm⟩
  · exact ⟨_, hm⟩
  · exfalso
    unfold parseDuration at hm
    match hp : parseUnsigned (2 ^ 64 - 1) s.dropLast with
    | none => rw [hp] at hm; cases hm
    | some n =>
      rw [hp] at hm
      dsimp only at hm
      obtain ⟨ds, hs, hne, hd, hn, hle⟩ := parseUnsigned_some hp
      have hsne : s ≠ [] := by
        rintro rfl
        rcases hs with hs | hs
        · exact hne (by simpa using hs.symm)
        · cases hs
      obtain ⟨u, hl, hs'⟩ := split_last s hsne
      have hform : s = ds ++ [u] ∨ s = '+' :: ds ++ [u] := by
        rcases hs with hs | hs
        · left; rw [hs', hs]
        · right; rw [hs', hs]
      rw [hl] at hm
      split at hm
      · cases hm
      · rename_i heq; cases heq; exact h ⟨ds, 'm', 60, hform, hne, hd, rfl⟩
      · rename_i heq; cases heq; exact h ⟨ds, 'h', 3600, hform, hne, hd, rfl⟩
      · cases hm
      · cases hm

/-- C56 is false for large values: 307445734561825861 minutes are taken for 44 seconds, or the program panics. -/
theorem c56_false_overflow : (Rt.checks F = false → parseDuration F c!"307445734561825861m" = .ok 44) ∧
    (Rt.checks F = true → parseDuration F c!"307445734561825861m" = .panic) := by
  have h : parseDuration F c!"307445734561825861m" = if Rt.checks F then .panic else .ok 44 := by
    have h1 : parseUnsigned (2 ^ 64 - 1) c!"307445734561825861" = some 307445734561825861 := by decide
    unfold parseDuration
    rw [show (c!"307445734561825861m").dropLast = c!"307445734561825861" from rfl, h1]
    rfl
  constructor <;> intro hc <;> rw [h, hc] <;> rfl

/-- C56 is false for a leading plus sign, which is accepted. -/
theorem c56_false_plus : parseDuration F c!"+5s" = .ok 5 := rfl

/-- The message about a missing unit is never given: the empty text is an invalid number. -/
theorem c56_no_unit : parseDuration F [] = .err c!"Invalid number: " := rfl

example : parseDuration F c!"90m" = .ok 5400 := c56_value_partial c!"90" 'm' 60 (by simp) (by decide) rfl (by decide)
example : parseDuration F c!"5" = .err c!"Invalid number: " ∧ parseDuration F c!"5d" = .err c!"Unknown time unit: d, supported units: s, m, h" := ⟨rfl, rfl⟩

/-! ## C57 -/

theorem isFan_iff (name : Str) : isFan name = true ↔ FanName name := by
  unfold isFan
  constructor
  · intro h
    split at h
    · rename_i x r heq
      refine ⟨(x :: r).reverse, by simp, ?_⟩
      have := congrArg List.reverse heq
      rw [List.reverse_reverse] at this
      rw [this]
      simp
    · cases h
  · rintro ⟨stem, hne, rfl⟩
    rw [List.reverse_append]
    cases hs : stem.reverse with
    | nil => exact absurd (List.reverse_eq_nil_iff.1 hs) hne
    | cons x r => rfl

theorem mem_insertEntry {α : Type} (e x : Str × α) (l : List (Str × α)) : x ∈ insertEntry e l ↔ x = e ∨ x ∈ l := by
  induction l with
  | nil => simp [insertEntry]
  | cons a l ih =>
    unfold insertEntry
    split
    · simp only [List.mem_cons, ih]; constructor <;> intro h <;> rcases h with h | h | h <;> simp [h]
    · simp

theorem mem_sortEntries {α : Type} (x : Str × α) (l : List (Str × α)) : x ∈ sortEntries l ↔ x ∈ l := by
  induction l with
  | nil => simp [sortEntries]
  | cons a l ih => rw [sortEntries, mem_insertEntry, ih]; simp

theorem textLt_trans {a b c : Str} (h1 : TextLt a b) (h2 : TextLt b c) : TextLt a c := by
  induction h1 generalizing c with
  | nil => cases h2 <;> exact .nil
  | head h => cases h2 with
    | head h' => exact .head (by omega)
    | tail _ => exact .head h
  | tail _ ih => cases h2 with
    | head h' => exact .head h'
    | tail h' => exact .tail (ih h')

theorem textLt_of_not_gt {a b : Str} (hne : a ≠ b) (h : strCmp a b ≠ .gt) : TextLt a b := by
  cases hc : strCmp a b with
  | lt => exact (strCmp_lt a b).1 hc
  | eq => exact absurd ((strCmp_eq a b).1 hc) hne
  | gt => exact absurd hc h

theorem insertEntry_sorted {α : Type} (e : Str × α) (l : List (Str × α)) (hl : l.Pairwise fun a b => TextLt a.1 b.1) (hn : ∀ x ∈ l, e.1 ≠ x.1) :
    (insertEntry e l).Pairwise fun a b => TextLt a.1 b.1 := by
  induction l with
  | nil => simp [insertEntry]
  | cons x l ih =>
    unfold insertEntry
    rw [List.pairwise_cons] at hl
    split
    · rename_i h
      rw [List.pairwise_cons]
      refine ⟨?_, ih hl.2 fun y hy => hn y (List.mem_cons_of_mem _ hy)⟩
      intro y hy
      rcases (mem_insertEntry e y l).1 hy with rfl | hy
      · exact (strCmp_lt _ _).1 ((strCmp_gt _ _).1 (by simpa using h))
      · exact hl.1 y hy
    · rename_i h
      have hex : TextLt e.1 x.1 := textLt_of_not_gt (hn x List.mem_cons_self) (by simpa using h)
      rw [List.pairwise_cons]
      refine ⟨?_, List.pairwise_cons.2 hl⟩
      intro y hy
      rcases List.mem_cons.1 hy with rfl | hy
      · exact hex
      · exact textLt_trans hex (hl.1 y hy)

theorem sortEntries_sorted {α : Type} (l : List (Str × α)) (hn : (l.map Prod.fst).Nodup) : (sortEntries l).Pairwise fun a b => TextLt a.1 b.1 := by
  induction l with
  | nil => exact .nil
  | cons e l ih =>
    rw [List.map_cons, List.nodup_cons] at hn
    refine insertEntry_sorted e _ (ih hn.2) ?_
    intro x hx heq
    exact hn.1 (by rw [heq]; exact List.mem_map_of_mem ((mem_sortEntries x l).1 hx))

theorem insertEntry_map {α β : Type} (f : α → β) (e : Str × α) (l : List (Str × α)) :
    insertEntry (e.1, f e.2) (l.map fun x => (x.1, f x.2)) = (insertEntry e l).map fun x => (x.1, f x.2) := by
  induction l with
  | nil => rfl
  | cons x l ih =>
    rw [List.map_cons]
    unfold insertEntry
    dsimp only
    split
    · rw [List.map_cons, ih]
    · rfl

theorem sortEntries_map {α β : Type} (f : α → β) (l : List (Str × α)) :
    sortEntries (l.map fun x => (x.1, f x.2)) = (sortEntries l).map fun x => (x.1, f x.2) := by
  induction l with
  | nil => rfl
  | cons e l ih => rw [List.map_cons, sortEntries, sortEntries, ih, insertEntry_map]

/-- The paths of an entry, seen from its directory. -/
def under (e : Str × List (List Str × Option Str)) : List (List Str × Option Str) := e.2.map fun p => (e.1 :: p.1, p.2)

mutual
/-- The files of a node in the order in which they are read. -/
def listing (name : Str) : Node → List (List Str × Option Str)
  | .dir entries => (sortEntries (listings entries)).flatMap under
  | .file content => if isFan name then [([], content)] else []
  | .other => []
termination_by structural n => n
/-- The same for the entries of a directory. -/
def listings : List (Str × Node) → List (Str × List (List Str × Option Str))
  | [] => []
  | (n, d) :: l => (n, listing n d) :: listings l
termination_by structural l => l
end

/-- The contents one after the other. -/
def texts : List (List Str × Option Str) → Option Str
  | [] => some []
  | (_, t) :: l => do
    let a ← t
    let b ← texts l
    pure (a ++ b)

theorem texts_append (a b : List (List Str × Option Str)) : texts (a ++ b) = (texts a).bind fun x => (texts b).bind fun y => some (x ++ y) := by
  induction a with
  | nil => simp [texts]
  | cons e a ih =>
    rw [List.cons_append, texts, texts, ih]
    cases e.2 <;> cases texts a <;> cases texts b <;> simp

theorem texts_under (e : Str × List (List Str × Option Str)) : texts (under e) = texts e.2 := by
  obtain ⟨n, l⟩ := e
  unfold under
  dsimp only
  induction l with
  | nil => rfl
  | cons x l ih => rw [List.map_cons, texts, texts, ih]

theorem concatTexts_flat (l : List (Str × List (List Str × Option Str))) : concatTexts (l.map fun x => (x.1, texts x.2)) = texts (l.flatMap under) := by
  induction l with
  | nil => rfl
  | cons e l ih => rw [List.map_cons, List.flatMap_cons, texts_append, texts_under, concatTexts, ih]; rfl

mutual
theorem readNode_listing (name : Str) : ∀ d : Node, readNode name d = texts (listing name d)
  | .dir es => by
    rw [readNode, listing, readEntries_listing es, sortEntries_map, concatTexts_flat]
  | .file c => by
    rw [readNode, listing]
    split
    · cases c <;> simp [texts]
    · rfl
  | .other => by rw [readNode, listing]; rfl
termination_by structural d => d
theorem readEntries_listing : ∀ es : List (Str × Node), readEntries es = (listings es).map fun x => (x.1, texts x.2)
  | [] => rfl
  | (n, d) :: l => by rw [readEntries, listings, List.map_cons, readNode_listing n d, readEntries_listing l]
termination_by structural es => es
end

theorem listings_names (es : List (Str × Node)) : (listings es).map Prod.fst = es.map Prod.fst := by
  induction es with
  | nil => rfl
  | cons e es ih => rw [listings, List.map_cons, List.map_cons, ih]

mutual
theorem mem_listing (name : Str) (path : List Str) (c : Option Str) : ∀ d : Node, (path, c) ∈ listing name d ↔ Below name d path c
  | .dir es => by
    rw [listing, List.mem_flatMap]
    constructor
    · rintro ⟨⟨n, l⟩, h1, h2⟩
      unfold under at h2
      obtain ⟨⟨p, c'⟩, hp, heq⟩ := List.mem_map.1 h2
      cases heq
      exact .dir ((mem_listings _ _ _ es).1 ⟨l, (mem_sortEntries _ _).1 h1, hp⟩)
    · intro h
      cases h with
      | dir h =>
        obtain ⟨l, h1, h2⟩ := (mem_listings _ _ _ es).2 h
        exact ⟨_, (mem_sortEntries _ _).2 h1, List.mem_map.2 ⟨_, h2, rfl⟩⟩
  | .file c' => by
    rw [listing]
    split
    · rename_i hf
      rw [List.mem_singleton]
      constructor
      · intro h; cases h; exact .file ((isFan_iff _).1 hf)
      · intro h; cases h; rfl
    · rename_i hf
      constructor
      · intro h; cases h
      · intro h; cases h with
        | file h => exact absurd ((isFan_iff _).2 h) hf
  | .other => by
    rw [listing]
    constructor
    · intro h; cases h
    · intro h; cases h
termination_by structural d => d
theorem mem_listings (n : Str) (path : List Str) (c : Option Str) : ∀ es : List (Str × Node),
    (∃ l, (n, l) ∈ listings es ∧ (path, c) ∈ l) ↔ BelowIn es n path c
  | [] => by
    rw [listings]
    constructor
    · rintro ⟨_, h, _⟩; cases h
    · intro h; cases h
  | (m, d) :: es => by
    rw [listings]
    constructor
    · rintro ⟨l, h1, h2⟩
      rcases List.mem_cons.1 h1 with h1 | h1
      · cases h1; exact .here ((mem_listing _ path c d).1 h2)
      · exact .there ((mem_listings n path c es).1 ⟨l, h1, h2⟩)
    · intro h
      cases h with
      | here h => exact ⟨_, List.mem_cons_self, (mem_listing _ path c d).2 h⟩
      | there h =>
        obtain ⟨l, h1, h2⟩ := (mem_listings n path c es).2 h
        exact ⟨l, List.mem_cons_of_mem _ h1, h2⟩
termination_by structural es => es
end

theorem flat_sorted (l : List (Str × List (List Str × Option Str))) (h1 : l.Pairwise fun a b => TextLt a.1 b.1)
    (h2 : ∀ e ∈ l, e.2.Pairwise fun a b => PathLt a.1 b.1) : (l.flatMap under).Pairwise fun a b => PathLt a.1 b.1 := by
  induction l with
  | nil => exact .nil
  | cons e l ih =>
    rw [List.pairwise_cons] at h1
    rw [List.flatMap_cons, List.pairwise_append]
    refine ⟨?_, ih h1.2 fun x hx => h2 x (List.mem_cons_of_mem _ hx), ?_⟩
    · unfold under
      rw [List.pairwise_map]
      exact (h2 e List.mem_cons_self).imp fun h => .tail h
    · intro a ha b hb
      obtain ⟨p, _, rfl⟩ := List.mem_map.1 ha
      obtain ⟨x, hx, hb⟩ := List.mem_flatMap.1 hb
      obtain ⟨q, _, rfl⟩ := List.mem_map.1 hb
      exact .head (h1.1 x hx)

mutual
theorem listing_sorted (name : Str) : ∀ d : Node, Distinct d → (listing name d).Pairwise fun a b => PathLt a.1 b.1
  | .dir es, h => by
    rw [listing]
    cases h with
    | dir h1 h2 => exact flat_sorted _ (sortEntries_sorted _ (by rw [listings_names]; exact h1)) fun e he => listings_sorted es h2 e ((mem_sortEntries _ _).1 he)
  | .file c, _ => by
    rw [listing]
    split
    · exact List.pairwise_singleton _ _
    · exact .nil
  | .other, _ => by rw [listing]; exact .nil
termination_by structural d => d
theorem listings_sorted : ∀ es : List (Str × Node), DistinctIn es → ∀ e ∈ listings es, e.2.Pairwise fun a b => PathLt a.1 b.1
  | [], _, e, he => by rw [listings] at he; cases he
  | (n, d) :: es, h, e, he => by
    rw [listings] at he
    cases h with
    | cons h1 h2 =>
      rcases List.mem_cons.1 he with rfl | he
      · exact listing_sorted n d h1
      · exact listings_sorted es h2 e he
termination_by structural es => es
end

theorem texts_some {l : List (List Str × Option Str)} (h : ∀ p ∈ l, p.2 ≠ none) :
    ∃ fs : List (List Str × Str), l = fs.map (fun f => (f.1, some f.2)) ∧ texts l = some (fs.flatMap Prod.snd) := by
  induction l with
  | nil => exact ⟨[], rfl, rfl⟩
  | cons e l ih =>
    obtain ⟨fs, h1, h2⟩ := ih fun p hp => h p (List.mem_cons_of_mem _ hp)
    obtain ⟨p, c⟩ := e
    cases c with
    | none => exact absurd rfl (h _ List.mem_cons_self)
    | some c => exact ⟨(p, c) :: fs, by rw [List.map_cons, ← h1], by rw [texts, h2]; rfl⟩

theorem texts_none {l : List (List Str × Option Str)} {p : List Str} (h : (p, none) ∈ l) : texts l = none := by
  induction l with
  | nil => cases h
  | cons e l ih =>
    rw [texts]
    rcases List.mem_cons.1 h with rfl | h
    · rfl
    · rw [ih h]; cases e.2 <;> rfl

/-- C57: the text of a path is the contents of all files below it whose extension is `fan`, one after the other, in strictly increasing order of
their paths (so each exactly once), when all of them can be read. -/
theorem c57_read (name : Str) (d : Node) (hd : Distinct d) (hr : ∀ path c, Below name d path c → c ≠ none) :
    ∃ files : List (List Str × Str), (∀ path c, (path, c) ∈ files ↔ Below name d path (some c)) ∧
      (files.Pairwise fun a b => PathLt a.1 b.1) ∧ readToString name d = .ok (files.flatMap Prod.snd) := by
  obtain ⟨fs, h1, h2⟩ := texts_some (l := listing name d) fun p hp => hr p.1 p.2 ((mem_listing name p.1 p.2 d).1 hp)
  refine ⟨fs, ?_, ?_, ?_⟩
  · intro path c
    rw [← mem_listing, h1]
    constructor
    · intro h; exact List.mem_map.2 ⟨_, h, rfl⟩
    · intro h
      obtain ⟨f, hf, heq⟩ := List.mem_map.1 h
      cases heq
      exact hf
  · have := listing_sorted name d hd
    rw [h1, List.pairwise_map] at this
    exact this
  · unfold readToString
    rw [readNode_listing, h2]

/-- C57: if one of them cannot be read the program panics. -/
theorem c57_unreadable (name : Str) (d : Node) (path : List Str) (h : Below name d path none) : readToString name d = .panic := by
  unfold readToString
  rw [readNode_listing, texts_none ((mem_listing name path none d).2 h)]

theorem pathLt_irrefl (p : List Str) : ¬ PathLt p p := by
  have hi : ∀ a : Str, ¬ TextLt a a := by
    intro a
    induction a with
    | nil => intro h; cases h
    | cons x a ih =>
      intro h
      cases h with
      | head h => omega
      | tail h => exact ih h
  induction p with
  | nil => intro h; cases h
  | cons a p ih =>
    intro h
    cases h with
    | head h => exact hi a h
    | tail h => exact ih h

theorem pathLt_trans {a b c : List Str} (h1 : PathLt a b) (h2 : PathLt b c) : PathLt a c := by
  induction h1 generalizing c with
  | nil => cases h2 <;> exact .nil
  | head h => cases h2 with
    | head h' => exact .head (textLt_trans h h')
    | tail _ => exact .head h
  | tail _ ih => cases h2 with
    | head h' => exact .head h'
    | tail h' => exact .tail (ih h')

/-- C57: this determines the text. -/
theorem c57_unique (l1 l2 : List (List Str × Str)) (h : ∀ f, f ∈ l1 ↔ f ∈ l2) (h1 : l1.Pairwise fun a b => PathLt a.1 b.1)
    (h2 : l2.Pairwise fun a b => PathLt a.1 b.1) : l1 = l2 := by
  induction l1 generalizing l2 with
  | nil =>
    cases l2 with
    | nil => rfl
    | cons b l2 => exact absurd ((h b).2 List.mem_cons_self) (by simp)
  | cons a l1 ih =>
    cases l2 with
    | nil => exact absurd ((h a).1 List.mem_cons_self) (by simp)
    | cons b l2 =>
      rw [List.pairwise_cons] at h1 h2
      have hab : a = b := by
        rcases List.mem_cons.1 ((h a).1 List.mem_cons_self) with e | ha
        · exact e
        · rcases List.mem_cons.1 ((h b).2 List.mem_cons_self) with e | hb
          · exact e.symm
          · exact absurd (pathLt_trans (h1.1 b hb) (h2.1 a ha)) (pathLt_irrefl _)
      subst hab
      rw [ih l2 ?_ h1.2 h2.2]
      intro f
      constructor
      · intro hf
        rcases List.mem_cons.1 ((h f).1 (List.mem_cons_of_mem _ hf)) with rfl | hf'
        · exact absurd (h1.1 f hf) (pathLt_irrefl _)
        · exact hf'
      · intro hf
        rcases List.mem_cons.1 ((h f).2 (List.mem_cons_of_mem _ hf)) with rfl | hf'
        · exact absurd (h2.1 f hf) (pathLt_irrefl _)
        · exact hf'

/-- Concrete case: a directory inside a directory, a file with another extension, and a file called `.fan`, which has no extension. -/
example : readToString c!"p" (.dir [(c!"b.fan", .file (some c!"B")), (c!"a", .dir [(c!"z.fan", .file (some c!"Z")), (c!"y.txt", .file (some c!"Y"))]),
    (c!".fan", .file none)]) = .ok c!"ZB" := by decide
example : Distinct (.dir [(c!"b.fan", .file (some c!"B")), (c!"a", .dir [(c!"z.fan", .file (some c!"Z"))])]) :=
  .dir (by decide) (.cons .file (.cons (.dir (by decide) (.cons .file .nil)) .nil))

end Am
