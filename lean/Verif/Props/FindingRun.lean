import Verif.Props.Finding
import Verif.Model.TestRun
/-! # C128 for `am test`: every iteration of every thread -/
set_option linter.unusedSimpArgs false
set_option linter.unusedSectionVars false
namespace Am
open Spec
variable {F : Type} [Rt F]

/-- What every step of a worker keeps, every run keeps for all workers. -/
theorem run_keeps {cfg : Config} {P : Worker F → Prop}
    (hP : ∀ cont i net w w' e, P w → Worker.step cfg cont i net w = some (w', e) → P w') : ∀ (l : List RunStep) (r r' : Run F),
    (∀ w ∈ r.workers, P w) → r.run cfg l = some r' → ∀ w ∈ r'.workers, P w := by
  intro l
  induction l with
  | nil => intro r r' h hr; cases hr; exact h
  | cons st l ih =>
    intro r r' h hr
    rw [Run.run, Option.bind_eq_some_iff] at hr
    obtain ⟨r1, h1, h2⟩ := hr
    refine ih r1 r' ?_ h2
    cases st with
    | work i net =>
      simp only [Run.step] at h1
      cases hw : r.workers[i]? with
      | none => rw [hw] at h1; cases h1
      | some w =>
        rw [hw] at h1
        dsimp only at h1
        cases hs : w.step cfg r.continuous i net with
        | none => rw [hs] at h1; cases h1
        | some p =>
          obtain ⟨w', e⟩ := p
          rw [hs] at h1
          cases h1
          intro x hx
          rcases List.mem_or_eq_of_mem_set hx with hx | rfl
          · exact h x hx
          · exact hP _ _ _ _ _ _ (h w (List.mem_of_getElem? hw)) hs
    | stop => cases h1; exact h
    | drop =>
      simp only [Run.step] at h1
      split at h1
      · cases h1; exact h
      · cases h1
    | collect =>
      simp only [Run.step] at h1
      split at h1
      · cases h1
      · split at h1
        · split at h1
          · cases h1; exact h
          · split at h1
            · cases h1; exact h
            · cases h1
        · cases h1; exact h

/-- The worker's variables of `D` have values, its requests are those of `table`, and its test passes the check. -/
def Prepared (table : List (Str × (Str × List (Expr F)))) (D : Str → Prop) (w : Worker F) : Prop :=
  (∀ x, D x → w.ctx.get x ≠ none) ∧ w.ctx.requests = table ∧ KnownList table D w.test ∧ CallsKnown table w.test

theorem prepared_step {table : List (Str × (Str × List (Expr F)))} {D : Str → Prop} {cfg : Config} {cont : Bool} {i : Nat} {net : Net} {w w' : Worker F} {e : Effect}
    (h : Prepared table D w) (hs : w.step cfg cont i net = some (w', e)) : Prepared table D w' := by
  obtain ⟨h1, h2, h3, h4⟩ := h
  unfold Worker.step at hs
  split at hs
  · split at hs
    · split at hs <;> (cases hs; exact ⟨h1, h2, h3, h4⟩)
    · cases hs; exact ⟨h1, h2, h3, h4⟩
  · have g := finds_block net w.test D .null h4 h3 ⟨w.ctx, [], []⟩ h2 h1
    change _ ∧ _ at g
    obtain ⟨g1, g2, _⟩ := g
    have g1 : (runBlock net w.test ⟨w.ctx, [], []⟩).2.ctx.requests = table := g1
    have g2 : HaveValues D (runBlock net w.test ⟨w.ctx, [], []⟩).2 := g2
    cases hr : runBlock net w.test ⟨w.ctx, [], []⟩ with | mk r s =>
    rw [hr] at g1 g2 hs
    cases r with
    | ok v => cases hs; exact ⟨g2, g1, h3, h4⟩
    | err m =>
      dsimp only at hs
      split at hs <;> (cases hs; exact ⟨g2, g1, h3, h4⟩)
    | panic => cases hs; exact ⟨g2, g1, h3, h4⟩
    | hang => cases hs; exact ⟨g2, g1, h3, h4⟩
  · cases hs; exact ⟨h1, h2, h3, h4⟩
  · cases hs; exact ⟨h1, h2, h3, h4⟩
  · dsimp only at hs
    split at hs <;> (cases hs; exact ⟨h1, h2, h3, h4⟩)
  · cases hs; exact ⟨h1, h2, h3, h4⟩
  · cases hs
  · cases hs

/-- C128: at every point of every run of `am test`, under every schedule, the next iteration of a thread whose test passes the check does not fail for a
missing name, whatever the servers answer, and fills every placeholder. `base` is the context the threads start with. -/
theorem c128_run {cfg : Config} {base : Context F} {D : Str → Prop} (hv : ∀ x, D x → base.get x ≠ none) {ws : List (Worker F)}
    (hw : ∀ w ∈ ws, ∃ record name test, w = Worker.init record base name test ∧ KnownList base.requests D test ∧ CallsKnown base.requests test)
    {l : List RunStep} {r : Run F} (hr : (Run.init ws).run cfg l = some r) (net : Net) : ∀ w ∈ r.workers,
    (∀ e, (runBlock net w.test ⟨w.ctx, [], []⟩).1 = .err e → ¬ NameError e) ∧ ∀ m ∈ (runBlock net w.test ⟨w.ctx, [], []⟩).2.sent, FilledIn base.requests m := by
  intro w hm
  have h0 : ∀ w ∈ (Run.init ws).workers, Prepared base.requests D w := by
    intro w hm
    obtain ⟨record, name, test, rfl, h1, h2⟩ := hw w hm
    exact ⟨hv, rfl, h1, h2⟩
  obtain ⟨h1, h2, h3, h4⟩ := run_keeps (fun _ _ _ _ _ _ => prepared_step) l _ r h0 hr w hm
  have h3' : KnownList w.ctx.requests D w.test := by rw [h2]; exact h3
  have h4' : CallsKnown w.ctx.requests w.test := by rw [h2]; exact h4
  refine ⟨c128_names net w.test D ⟨w.ctx, [], []⟩ h1 h3' h4', fun m hm => ?_⟩
  obtain ⟨k, g1, g2⟩ := c128_sent net w.test D ⟨w.ctx, [], []⟩ h1 h3' h4'
  rw [g1] at hm
  exact h2 ▸ g2 m hm

/-- The workers that `am test` starts run tests of the source, from the context the top level left. -/
theorem startWorkers_init {order : List (Str × List (Expr F)) → List (Str × List (Expr F))} (ho : ∀ l, ∀ p ∈ order l, p ∈ l) {record : Bool} {base : Context F}
    {tests : List (Str × List (Expr F))} {name : Option Str} {threads number : Nat} {stat : Bool} {cfg : Config} {ws : List (Worker F)}
    (h : startWorkers order record base tests name threads number stat = .ok (some (cfg, ws))) :
    ∀ w ∈ ws, ∃ t ∈ tests, w = Worker.init record base t.1 t.2 := by
  intro w hw
  unfold startWorkers at h
  cases name with
  | some n =>
    dsimp only at h
    cases hg : amGet n tests with
    | none => rw [hg] at h; cases h
    | some test =>
      rw [hg] at h
      dsimp only at h
      cases hp : perThread number threads with
      | ok m =>
        rw [hp] at h
        cases h
        exact ⟨(n, test), amGet_mem hg, List.eq_of_mem_replicate hw⟩
      | _ => rw [hp] at h; cases h
  | none =>
    cases h
    obtain ⟨p, hp, rfl⟩ := List.mem_map.1 hw
    exact ⟨p, ho _ p hp, rfl⟩

/-- C128: from the text: when the statements at top level pass the check and every test passes it with the variables that those certainly set, the statements
at top level do not fail for a missing name, and no iteration of any test in any thread does, under any schedule. -/
theorem c128_am_test {text : Str} {src : Source F} (hp : (parse text : Res (Source F)) = .ok src) (net : Net) (s : St F)
    {table : List (Str × (Str × List (Expr F)))} (ht : (s.ctx.extend src.requests).requests = table)
    (htop : KnownList table (fun x => s.ctx.get x ≠ none) src.exprs) (hcalls : CallsKnown table src.exprs)
    (htests : ∀ t ∈ src.tests, KnownList table (more (fun x => s.ctx.get x ≠ none) (sureList src.exprs)) t.2 ∧ CallsKnown table t.2) :
    (∀ e, (runBlock net src.exprs { s with ctx := s.ctx.extend src.requests }).1 = .err e → ¬ NameError e) ∧
    ∀ tests t, setup net text s = (.ok (some tests), t) → ∀ order : List (Str × List (Expr F)) → List (Str × List (Expr F)), (∀ l, ∀ p ∈ order l, p ∈ l) →
    ∀ record name threads number stat cfg ws, startWorkers order record t.ctx tests name threads number stat = .ok (some (cfg, ws)) →
    ∀ l r, (Run.init ws).run cfg l = some r → ∀ net, ∀ w ∈ r.workers, ∀ e, (runBlock net w.test ⟨w.ctx, [], []⟩).1 = .err e → ¬ NameError e := by
  subst ht
  refine ⟨c128_names net src.exprs _ { s with ctx := s.ctx.extend src.requests } (fun _ h => h) htop hcalls, ?_⟩
  intro tests t hs order ho record name threads number stat cfg ws hw l r hr net' w hm
  have hreq := c19_requests_fixed net src.exprs { s with ctx := s.ctx.extend src.requests }
  have hsure := c128_sure net src.exprs _ { s with ctx := s.ctx.extend src.requests } (fun _ h => h) htop hcalls
  unfold setup at hs
  rw [hp] at hs
  dsimp only at hs
  cases hx : runBlock net src.exprs { s with ctx := s.ctx.extend src.requests } with | mk q u =>
  rw [hx] at hs hreq hsure
  cases q with
  | ok v =>
    dsimp only at hs hreq hsure
    cases hs
    refine (c128_run (D := more (fun x => s.ctx.get x ≠ none) (sureList src.exprs)) (hsure v rfl) (fun w hm => ?_) hr net' w hm).1
    obtain ⟨t, h1, h2⟩ := startWorkers_init ho hw w hm
    exact ⟨record, t.1, t.2, h2, by rw [hreq]; exact (htests t h1).1, by rw [hreq]; exact (htests t h1).2⟩
  | _ => cases hs

/-- Concrete case: a variable set at top level is there for the test, whose request uses it in a placeholder. -/
example : ∃ src : Source F, parse c!"let host = \"h\" request r `GET http://{host}/` test t { r().status }" = .ok src ∧ src.tests.length = 1 ∧
    KnownList (src.requests) (fun _ => False) src.exprs ∧ CallsKnown src.requests src.exprs ∧
    ∀ t ∈ src.tests, KnownList src.requests (more (fun _ => False) (sureList src.exprs)) t.2 ∧ CallsKnown src.requests t.2 := by
  refine ⟨⟨[.letE c!"host" (.str c!"h")], [(c!"r", (c!"GET http://{host}/", []))], [(c!"t", [.field (.call c!"r" []) c!"status"])]⟩, rfl, rfl, ?_, ?_, ?_⟩
  · exact ⟨trivial, trivial⟩
  · intro f hf
    simp [calledList, called] at hf
  · intro t ht
    cases List.mem_singleton.1 ht
    constructor
    · have hl : ∀ ps x, Pieces c!"GET http://{host}/" ps → Piece.hole x ∈ ps → x = c!"host" := by
        intro ps x hp hx
        have : Pieces c!"GET http://{host}/" ((c!"GET http://").map .lit ++ [.hole c!"host", .lit '/']) := by
          simp only [List.map_cons, List.map_nil, List.cons_append, List.nil_append]
          repeat (first | refine .lit (matchAt_none.1 (by decide +kernel)) ?_)
          exact .hole (h := c!"{host}") (rest := c!"/") ⟨[], [], 'h', c!"ost", by decide, by decide, by decide, by decide, by decide, by decide⟩
            (.lit (matchAt_none.1 (by decide +kernel)) .nil)
        rw [pieces_unique hp this] at hx
        simpa using hx
      simp only [KnownList, KnownIn, sure, sureList, List.append_nil, and_true, true_and]
      intro message asserts ps x hr hps hx
      simp [amGet] at hr
      rw [← hr.1] at hps
      rw [hl ps x hps hx]
      simp [more]
    · intro f hf
      have : f = c!"r" := by simpa [calledList, called] using hf
      subst this
      exact .inl (by simp [amGet])

end Am
