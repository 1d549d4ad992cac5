import Verif.Spec.Memory
import Verif.Props.Growth
import Verif.Props.Flow
import Verif.Props.Semantics
import Verif.Proofs.Equality
/-! # C109: what a run keeps in memory does not grow with the number of iterations -/
set_option linter.unusedSimpArgs false
set_option linter.unusedSectionVars false
namespace Am
open Spec
variable {F : Type} [Rt F]

theorem bulkPairs_entry {k : Str} {v : Value F} : ∀ {l : List (Str × Value F)}, (k, v) ∈ l → 1 + k.length + bulk v ≤ bulkPairs l
  | [], h => nomatch h
  | (j, w) :: l, h => by
    simp only [bulkPairs]
    rcases List.mem_cons.1 h with h | h
    · cases h; omega
    · have := bulkPairs_entry h; omega

theorem bulkPairs_all {B : Nat} : ∀ {l : List (Str × Value F)}, (∀ p ∈ l, 1 + p.1.length + bulk p.2 ≤ B) → bulkPairs l ≤ l.length * B
  | [], _ => by simp [bulkPairs]
  | (j, w) :: l, h => by
    have h1 := h (j, w) (by simp)
    have h2 := bulkPairs_all (l := l) (fun p hp => h p (by simp [hp]))
    simp only [bulkPairs, List.length_cons, Nat.add_mul, Nat.one_mul]
    dsimp only at h1
    omega

/-- The records belong to requests of the table. -/
def Named (table : List (Str × (Str × List (Expr F)))) (rs : List Record) : Prop := ∀ r ∈ rs, r.name ∈ table.map Prod.fst

theorem records_named {net : Net} {table : List (Str × (Str × List (Expr F)))} {before ms : List Str} {rs : List Record}
    (h : RecordsOf net table before ms rs) : Named table rs := by
  induction h with
  | nil => intro r hr; cases hr
  | cons h1 _ ih =>
    intro r hr
    rcases List.mem_cons.1 hr with rfl | hr
    · obtain ⟨m, a, h2, _⟩ := h1
      exact List.mem_map.2 ⟨_, amGet_mem h2, rfl⟩
    · exact ih r hr

/-- The context of a thread after any number of iterations on networks of `Q`. -/
structure Steady (base : Context F) (test : List (Expr F)) (Q : Net → Prop) (c : Context F) : Prop where
  requests : c.requests = base.requests
  proper : Proper (.map c.inner)
  frame : ∀ x, x ∉ letsList test → c.get x = base.get x
  vars : KnownList base.requests (fun x => x ∉ letsList test) test →
    ∀ x, c.get x = base.get x ∨ ∃ net, Q net ∧ c.get x = (runBlock net test ⟨base.clone, [], []⟩).2.ctx.get x

theorem steady_next {base : Context F} {test : List (Expr F)} {Q : Net → Prop} {c : Context F} (h : Steady base test Q c) (hr : c.records = [])
    {net : Net} (hn : Q net) : Steady base test Q (runBlock net test ⟨c, [], []⟩).2.ctx := by
  refine ⟨(c19_requests_fixed net test ⟨c, [], []⟩).trans h.requests, (c63_proper net test ⟨c, [], []⟩ h.proper).1,
    fun x hx => (c17_frame net test ⟨c, [], []⟩ x hx).trans (h.frame x hx), fun hk x => ?_⟩
  have ha : Alike (fun x => x ∉ letsList test) ⟨c, [], []⟩ ⟨base.clone, [], []⟩ := ⟨h.requests, hr, rfl, rfl, h.frame⟩
  rcases c77_wrote net test _ _ _ ha (by rw [show (⟨c, [], []⟩ : St F).ctx.requests = base.requests from h.requests]; exact hk) x with h1 | ⟨h1, _⟩
  · exact Or.inr ⟨net, hn, h1⟩
  · rw [h1]; exact h.vars hk x

theorem records_few {net : Net} {test : List (Expr F)} {c : Context F} (hr : c.records = []) :
    (runBlock net test ⟨c, [], []⟩).2.ctx.records.length ≤ callsList test ∧ Named c.requests (runBlock net test ⟨c, [], []⟩).2.ctx.records := by
  obtain ⟨msgs, recs, lost, h1, h2, h3, _⟩ := c20_records net test ⟨c, [], []⟩
  obtain ⟨more, h4, h5⟩ := c13_bounded net test ⟨c, [], []⟩
  rw [h4] at h1
  have := congrArg List.length h1
  simp only [List.length_append, List.length_nil] at this
  rw [h2]
  simp only [hr, List.nil_append]
  exact ⟨by rw [c20_count h3]; omega, records_named h3⟩

/-- A thread after any number of iterations. -/
structure Small (base : Context F) (test : List (Expr F)) (Q : Net → Prop) (w : Worker F) : Prop where
  same : w.test = test
  ctx : Steady base test Q w.ctx
  empty : w.pc ≠ .done → w.pc ≠ .stuck → w.ctx.records = []
  few : (heldRecords w).length ≤ callsList test
  named : Named base.requests (heldRecords w)

theorem small_init (record : Bool) {base : Context F} (hb : Proper (.map base.inner)) (name : Str) (test : List (Expr F)) (Q : Net → Prop) :
    Small base test Q (fresh record base name test) :=
  ⟨rfl, ⟨rfl, hb, fun _ _ => rfl, fun _ _ => Or.inl rfl⟩, fun _ _ => rfl, Nat.zero_le _, by intro r hr; cases hr⟩

theorem steady_take {base : Context F} {test : List (Expr F)} {Q : Net → Prop} {c : Context F} (h : Steady base test Q c) :
    Steady base test Q { c with records := [] } := ⟨h.requests, h.proper, h.frame, h.vars⟩

theorem small_step {base : Context F} {test : List (Expr F)} {Q : Net → Prop} {cfg : Config} {cont : Bool} {i : Nat} {net : Net} (hn : Q net)
    {w w' : Worker F} {e : Effect} (h : Small base test Q w) (hs : w.step cfg cont i net = some (w', e)) :
    Small base test Q w' ∧ (cfg.stat = false → e.sent = []) ∧ ∀ b ∈ e.sent, Named base.requests b := by
  obtain ⟨pc, name, test', ctx, number, file⟩ := w
  obtain ⟨h1, h2, h3, h4, h5⟩ := h
  dsimp only at h1 h2 h3
  subst h1
  cases pc with
  | head =>
    have hr := h3 (by simp) (by simp)
    have hx : w' = { (⟨.head, name, test', ctx, number, file⟩ : Worker F) with pc := w'.pc } ∧ (w'.pc = .eval ∨ w'.pc = .done) ∧ e.sent = [] := by
      simp only [Worker.step] at hs
      split at hs
      · split at hs <;> cases hs
        · exact ⟨rfl, .inl rfl, rfl⟩
        · exact ⟨rfl, .inr rfl, rfl⟩
      · cases hs; exact ⟨rfl, .inl rfl, rfl⟩
    obtain ⟨x1, x2, x3⟩ := hx
    refine ⟨?_, fun _ => x3, by rw [x3]; simp⟩
    rw [x1]
    rcases x2 with x2 | x2 <;> rw [x2] <;>
      exact ⟨rfl, h2, fun _ _ => hr, by simp [heldRecords, hr], by simp [heldRecords, hr, Named]⟩
  | eval =>
    have hr := h3 (by simp) (by simp)
    have g1 := steady_next h2 hr hn
    obtain ⟨g2, g3⟩ := records_few (net := net) (test := test') hr
    rw [h2.requests] at g3
    simp only [Worker.step] at hs
    cases hrun : runBlock net test' ⟨ctx, [], []⟩ with | mk res s =>
    rw [hrun] at hs g1 g2 g3
    dsimp only at g1 g2 g3
    cases res with
    | ok v =>
      cases hs
      refine ⟨⟨rfl, steady_take g1, fun _ _ => rfl, ?_, ?_⟩, fun _ => rfl, by simp⟩
      · simpa [heldRecords, Context.takeRecords] using g2
      · simpa [heldRecords, Context.takeRecords] using g3
    | err m =>
      dsimp only at hs
      by_cases hc : cfg.named = true
      · rw [if_pos hc] at hs
        cases hs
        refine ⟨⟨rfl, g1, by simp, ?_, ?_⟩, fun _ => rfl, by simp⟩
        · simpa [heldRecords] using g2
        · simpa [heldRecords] using g3
      · rw [if_neg hc] at hs
        cases hs
        refine ⟨⟨rfl, steady_take g1, fun _ _ => rfl, ?_, ?_⟩, fun _ => rfl, by simp⟩
        · simpa [heldRecords, Context.takeRecords] using g2
        · simpa [heldRecords, Context.takeRecords] using g3
    | panic =>
      cases hs
      refine ⟨⟨rfl, g1, by simp, ?_, ?_⟩, fun _ => rfl, by simp⟩
      · simpa [heldRecords] using g2
      · simpa [heldRecords] using g3
    | hang =>
      cases hs
      refine ⟨⟨rfl, g1, by simp, ?_, ?_⟩, fun _ => rfl, by simp⟩
      · simpa [heldRecords] using g2
      · simpa [heldRecords] using g3
  | print rs left =>
    have hr := h3 (by simp) (by simp)
    cases left with
    | nil => cases hs; exact ⟨⟨rfl, h2, fun _ _ => hr, h4, h5⟩, fun _ => rfl, by simp⟩
    | cons r left => cases hs; exact ⟨⟨rfl, h2, fun _ _ => hr, h4, h5⟩, fun _ => rfl, by simp⟩
  | write rs =>
    have hr := h3 (by simp) (by simp)
    simp only [Worker.step] at hs
    split at hs <;> cases hs
    · exact ⟨⟨rfl, h2, fun _ _ => hr, h4, h5⟩, fun _ => rfl, by simp⟩
    · exact ⟨⟨rfl, h2, fun _ _ => hr, by simp [heldRecords, hr], by simp [heldRecords, hr, Named]⟩, fun _ => rfl, by simp⟩
  | send rs =>
    have hr := h3 (by simp) (by simp)
    cases hs
    refine ⟨⟨rfl, h2, fun _ _ => hr, by simp [heldRecords, hr], by simp [heldRecords, hr, Named]⟩, fun hst => by simp [hst], ?_⟩
    intro b hb
    dsimp only at hb
    split at hb
    · cases List.mem_singleton.1 hb
      simpa [heldRecords, hr] using h5
    · cases hb
  | done => cases hs
  | stuck => cases hs

theorem stats_add_keys (s : Stats) (name : Str) (t : Nat) (hn : KeysNodup s) :
    KeysNodup (s.add name t) ∧ ∀ k ∈ (s.add name t).map Prod.fst, k = name ∨ k ∈ s.map Prod.fst := by
  have key : ∀ v : Stat, KeysNodup (amInsert name v s) ∧ ∀ k ∈ (amInsert name v s).map Prod.fst, k = name ∨ k ∈ s.map Prod.fst := by
    intro v
    refine ⟨amInsert_nodup hn, ?_⟩
    clear hn
    induction s with
    | nil => simp [amInsert]
    | cons p s ih =>
      obtain ⟨j, w⟩ := p
      intro k hk
      simp only [amInsert] at hk
      split at hk
      · simp only [List.map_cons, List.mem_cons] at hk ⊢
        rename_i hj
        rcases hk with hk | hk
        · exact .inl hk
        · exact .inr (.inr hk)
      · simp only [List.map_cons, List.mem_cons] at hk ⊢
        rcases hk with hk | hk
        · exact .inr (.inl hk)
        · exact (ih k hk).imp id .inr
  unfold Stats.add
  split
  · exact key _
  · exact key _

theorem stats_batch_keys {table : List (Str × (Str × List (Expr F)))} : ∀ (rs : List Record) (s : Stats), Named table rs → KeysNodup s →
    (∀ k ∈ s.map Prod.fst, k ∈ table.map Prod.fst) → KeysNodup (addBatch s rs) ∧ ∀ k ∈ (addBatch s rs).map Prod.fst, k ∈ table.map Prod.fst
  | [], s, _, h2, h3 => ⟨h2, h3⟩
  | r :: rs, s, h1, h2, h3 => by
    obtain ⟨g1, g2⟩ := stats_add_keys s r.name (r.time.total / 1000000) h2
    refine stats_batch_keys rs _ (fun x hx => h1 x (List.mem_cons_of_mem _ hx)) g1 (fun k hk => ?_)
    rcases g2 k hk with rfl | hk
    · exact h1 r List.mem_cons_self
    · exact h3 k hk

/-- The whole program after any number of iterations. -/
structure SmallRun (base : Context F) (test : List (Expr F)) (Q : Net → Prop) (stat : Bool) (t : Nat) (r : Run F) : Prop where
  workers : ∀ w ∈ r.workers, Small base test Q w
  length : r.workers.length = t
  quiet : stat = false → r.channel = []
  channel : ∀ b ∈ r.channel, Named base.requests b
  nodup : KeysNodup r.stats
  keys : ∀ k ∈ r.stats.map Prod.fst, k ∈ base.requests.map Prod.fst

theorem smallRun_step {base : Context F} {test : List (Expr F)} {Q : Net → Prop} {cfg : Config} {t : Nat} {r r' : Run F} {s : RunStep}
    (h : SmallRun base test Q cfg.stat t r) (hq : ∀ i net, s = .work i net → Q net) (hs : r.step cfg s = some r') : SmallRun base test Q cfg.stat t r' := by
  obtain ⟨h1, h2, h3, h4, h5, h6⟩ := h
  cases s with
  | work i net =>
    simp only [Run.step] at hs
    split at hs
    · cases hs
    · rename_i w hw
      split at hs
      · cases hs
      · rename_i w' e he
        cases hs
        obtain ⟨g1, g2, g3⟩ := small_step (hq i net rfl) (h1 w (List.mem_of_getElem? hw)) he
        refine ⟨?_, by simpa using h2, fun hc => by simp [h3 hc, g2 hc], ?_, h5, h6⟩
        · intro x hx
          rcases List.mem_or_eq_of_mem_set hx with hx | rfl
          · exact h1 x hx
          · exact g1
        · intro b hb
          rcases List.mem_append.1 hb with hb | hb
          · exact h4 b hb
          · exact g3 b hb
  | stop => cases hs; exact ⟨h1, h2, h3, h4, h5, h6⟩
  | drop =>
    simp only [Run.step] at hs
    split at hs <;> cases hs
    exact ⟨h1, h2, h3, h4, h5, h6⟩
  | collect =>
    simp only [Run.step] at hs
    split at hs
    · cases hs
    · split at hs
      · split at hs
        · rename_i b q hc
          cases hs
          rw [hc] at h3 h4
          obtain ⟨g1, g2⟩ := stats_batch_keys b r.stats (h4 b List.mem_cons_self) h5 h6
          exact ⟨h1, h2, fun hst => (by cases h3 hst), fun x hx => h4 x (List.mem_cons_of_mem _ hx), g1, g2⟩
        · split at hs <;> cases hs
          exact ⟨h1, h2, h3, h4, h5, h6⟩
      · cases hs
        exact ⟨h1, h2, h3, h4, h5, h6⟩

theorem smallRun_run {base : Context F} {test : List (Expr F)} {Q : Net → Prop} {cfg : Config} {t : Nat} {l : List RunStep} : ∀ {r r' : Run F},
    SmallRun base test Q cfg.stat t r → (∀ i net, RunStep.work i net ∈ l → Q net) → r.run cfg l = some r' → SmallRun base test Q cfg.stat t r' := by
  induction l with
  | nil => intro r r' h _ hs; cases hs; exact h
  | cons s l ih =>
    intro r r' h hq hs
    rw [Run.run, Option.bind_eq_some_iff] at hs
    obtain ⟨r1, h1, h2⟩ := hs
    exact ih (smallRun_step h (fun i net he => hq i net (by simp [he])) h1) (fun i net he => hq i net (List.mem_cons_of_mem _ he)) h2

theorem smallRun_named {record stat : Bool} {base : Context F} (hb : Proper (.map base.inner)) {name : Str} {test : List (Expr F)} {t n : Nat}
    {l : List RunStep} {r : Run F} (h : NamedRun record stat base name test t n l r) {Q : Net → Prop} (hq : ∀ i net, RunStep.work i net ∈ l → Q net) :
    SmallRun base test Q stat t r := by
  refine smallRun_run (cfg := ⟨true, n / t, stat⟩) ⟨?_, by simp [Run.init], fun _ => rfl, by simp [Run.init], by simp [Run.init, KeysNodup], by simp [Run.init]⟩ hq h
  intro w hw
  cases (List.mem_replicate.1 hw).2
  exact small_init record hb name test Q

/-- The number of variables of a context after any number of iterations. -/
theorem steady_names {base : Context F} {test : List (Expr F)} {Q : Net → Prop} {c : Context F} (h : Steady base test Q c) :
    c.inner.length ≤ base.inner.length + (letsList test).length := by
  have := nodup_length_le (l := c.inner.map Prod.fst) (r := base.inner.map Prod.fst ++ letsList test) (proper_keys h.proper) (by
    intro x hx
    by_cases hm : x ∈ letsList test
    · exact List.mem_append_right _ hm
    · obtain ⟨⟨k, v⟩, hp, rfl⟩ := List.mem_map.1 hx
      have := h.frame k hm
      simp only [Context.get] at this
      rw [amGet_of_mem (proper_keys h.proper) hp] at this
      exact List.mem_append_left _ (List.mem_map.2 ⟨_, amGet_mem this.symm, rfl⟩))
  simpa using this

/-- C109: at every moment of every run of a named test, whatever the number of iterations, a thread has at most the variables of the script and those its
test sets, and at most as many records as the test has calls; the statistics have at most one entry for every request; and without `--stat` nothing
waits to be counted. -/
theorem c109_numbers_partial {record stat : Bool} {base : Context F} (hb : Proper (.map base.inner)) {name : Str} {test : List (Expr F)} {t n : Nat}
    {l : List RunStep} {r : Run F} (h : NamedRun record stat base name test t n l r) :
    r.workers.length = t ∧
    (∀ w ∈ r.workers, w.ctx.inner.length ≤ base.inner.length + (letsList test).length ∧ (heldRecords w).length ≤ callsList test) ∧
    r.stats.length ≤ base.requests.length ∧ (stat = false → waiting r = 0) := by
  have hr := smallRun_named hb h (Q := fun _ => True) (fun _ _ _ => trivial)
  refine ⟨hr.length, fun w hw => ⟨steady_names (hr.workers w hw).ctx, (hr.workers w hw).few⟩, ?_, fun hs => by rw [waiting, hr.quiet hs]; rfl⟩
  have := nodup_length_le hr.nodup hr.keys
  simpa using this

/-- C109, partial: for a test that sets its own variables before it reads them, everything the program keeps, apart from batches waiting to be counted,
takes room that does not depend on the number of iterations. Missing: tests that read a variable left by the iteration before (`c109_false`), and the
batches that wait when `--stat` is given (`c109_waiting`). -/
theorem c109_room_partial {record stat : Bool} {base : Context F} (hb : Proper (.map base.inner)) {name : Str} {test : List (Expr F)} {t n : Nat}
    {l : List RunStep} {r : Run F} (h : NamedRun record stat base name test t n l r)
    (hk : KnownList base.requests (fun x => x ∉ letsList test) test)
    {b a m : Nat} (hT : Tame F b) (hnet : ∀ i net, RunStep.work i net ∈ l → Answers F net m) (hs : bulkPairs base.inner < m) (hl : lettersAll test < m)
    (hrq : ∀ name message asserts, base.request name = some (message, asserts) → nodesAll 0 asserts ≤ a ∧ lettersAll asserts < m) :
    kept r ≤ t * ((base.inner.length + (letsList test).length) * ((b + 50) ^ nodesAll a test * m) + callsList test) + waiting r + base.requests.length := by
  have hr := smallRun_named hb h hnet
  obtain ⟨c1, c2, c3, _⟩ := c109_numbers_partial hb h
  have hw : ∀ w ∈ r.workers, bulkPairs w.ctx.inner + (heldRecords w).length ≤
      (base.inner.length + (letsList test).length) * ((b + 50) ^ nodesAll a test * m) + callsList test := by
    intro w hw
    have hc := (hr.workers w hw).ctx
    refine Nat.add_le_add ?_ (c2 w hw).2
    refine Nat.le_trans (bulkPairs_all (B := (b + 50) ^ nodesAll a test * m) ?_) (Nat.mul_le_mul_right _ (c2 w hw).1)
    rintro ⟨k, v⟩ hp
    have hg : w.ctx.get k = some v := amGet_of_mem (proper_keys hc.proper) hp
    rcases hc.vars hk k with h1 | ⟨net, h0, h1⟩
    · rw [hg] at h1
      have := bulkPairs_entry (amGet_mem h1.symm)
      have hpos : m ≤ (b + 50) ^ nodesAll a test * m := Nat.le_mul_of_pos_left _ (Nat.pow_pos (by omega))
      dsimp only
      omega
    · rw [hg] at h1
      have := bulkPairs_entry (amGet_mem h1.symm)
      have hB := c104_room_partial (a := a) (m := m) hT h0 (s := ⟨base.clone, [], []⟩) hs hl hrq
      dsimp only
      omega
  have := sum_le_mul (l := r.workers.map fun w => bulkPairs w.ctx.inner + (heldRecords w).length) (by
    intro x hx
    obtain ⟨w, h1, rfl⟩ := List.mem_map.1 hx
    exact hw w h1)
  rw [List.length_map, c1] at this
  unfold kept
  omega

/-! ## What does grow -/

theorem runs_append (cfg : Config) : ∀ (l l' : List RunStep) (r : Run F), r.run cfg (l ++ l') = (r.run cfg l).bind fun q => q.run cfg l'
  | [], _, _ => rfl
  | s :: l, l', r => by
    simp only [List.cons_append, Run.run]
    cases r.step cfg s with
    | none => rfl
    | some q => exact runs_append cfg l l' q

/-- A thread prints its records. -/
theorem prints (cfg : Config) (net : Net) (rs : List Record) : ∀ (left : List Record) (w : Worker F) (r : Run F), w.pc = .print rs left → r.workers = [w] →
    ∃ out, r.run cfg (List.replicate left.length (.work 0 net)) = some { r with workers := [{ w with pc := .print rs [] }], out := r.out ++ out }
  | [], w, r, hw, hr => by
    refine ⟨[], ?_⟩
    obtain ⟨pc, _, _, _, _, _⟩ := w
    obtain ⟨ws, _, _, _, _, _, _⟩ := r
    dsimp only at hw hr
    subst hw hr
    simp [Run.run]
  | x :: left, w, r, hw, hr => by
    obtain ⟨pc, name, test, ctx, number, file⟩ := w
    obtain ⟨ws, co, ch, ms, cl, st, out⟩ := r
    dsimp only at hw hr
    subst hw hr
    obtain ⟨o, h⟩ := prints cfg net rs left ⟨.print rs left, name, test, ctx, number, file⟩
      ⟨[⟨.print rs left, name, test, ctx, number, file⟩], co, ch, ms, cl, st, out ++ [(some 0, x.text ++ c!"\n")]⟩ rfl rfl
    refine ⟨(some 0, x.text ++ c!"\n") :: o, ?_⟩
    simp only [List.length_cons, List.replicate_succ, Run.run, Run.step, List.getElem?_cons_zero, Worker.step, List.map_cons, List.map_nil, List.set_cons_zero,
      List.append_nil, Option.bind_some] at h ⊢
    rw [h]
    simp

/-- A single thread goes through one iteration; the statistics thread does nothing meanwhile. -/
theorem one_iteration {cfg : Config} (hn : cfg.named = true) {net : Net} {w : Worker F} {v : Value F} {s : St F} (hpc : w.pc = .head)
    (hlt : w.number < cfg.maximum) (hrun : runBlock net w.test ⟨w.ctx, [], []⟩ = (.ok v, s)) (r : Run F) (hw : r.workers = [w]) (hc : r.continuous = true) :
    ∃ f out l, r.run cfg l = some { r with
        workers := [{ w with ctx := { s.ctx with records := [] }, number := w.number + 1, file := f }]
        channel := r.channel ++ (if cfg.stat then [s.ctx.records] else [])
        out := r.out ++ out } ∧ ∀ x ∈ l, x = .work 0 net := by
  obtain ⟨pc, name, test, ctx, number, file⟩ := w
  obtain ⟨ws, co, ch, ms, cl, st, out⟩ := r
  dsimp only at hpc hlt hrun hw hc
  subst hpc hw hc
  obtain ⟨o, h⟩ := prints (F := F) cfg net s.ctx.records s.ctx.records ⟨.print s.ctx.records s.ctx.records, name, test, { s.ctx with records := [] }, number, file⟩
    ⟨[⟨.print s.ctx.records s.ctx.records, name, test, { s.ctx with records := [] }, number, file⟩], true, ch, ms, cl, st, out ++ [(some 0, s.out)]⟩ rfl rfl
  refine ⟨file.map fun f => f ++ encBlock s.ctx.records name 0 number, (some 0, s.out) :: o,
    [.work 0 net, .work 0 net] ++ (List.replicate s.ctx.records.length (.work 0 net) ++ [.work 0 net, .work 0 net, .work 0 net]), ?_, ?_⟩
  · have h1 : (⟨[⟨.head, name, test, ctx, number, file⟩], true, ch, ms, cl, st, out⟩ : Run F).run cfg [.work 0 net, .work 0 net] =
        some ⟨[⟨.print s.ctx.records s.ctx.records, name, test, { s.ctx with records := [] }, number, file⟩], true, ch, ms, cl, st, out ++ [(some 0, s.out)]⟩ := by
      simp [Run.run, Run.step, Worker.step, hn, hlt, hrun, Context.takeRecords]
    rw [runs_append, h1, Option.bind_some, runs_append, h, Option.bind_some]
    simp [Run.run, Run.step, Worker.step, hn]
  · intro x hx
    simp only [List.mem_append, List.mem_cons, List.not_mem_nil, or_false, List.mem_replicate] at hx
    rcases hx with (h | h) | (⟨_, h⟩ | h | h | h) <;> exact h

/-- `n` iterations of one thread, when `P` holds before each and each succeeds. -/
theorem many_iterations {net : Net} {test : List (Expr F)} {P : Nat → Context F → Prop} {rs : List Record}
    (hP : ∀ k c, P k c → ∃ v s, runBlock net test ⟨c, [], []⟩ = (.ok v, s) ∧ s.ctx.records = rs ∧ P (k + 1) { s.ctx with records := [] })
    (record stat : Bool) (base : Context F) (name : Str) (h0 : P 0 base.clone) (n : Nat) : ∀ k, k ≤ n → ∃ l r w,
      NamedRun record stat base name test 1 n l r ∧ (∀ x ∈ l, x = .work 0 net) ∧ r.workers = [w] ∧ w.pc = .head ∧ w.test = test ∧ w.number = k ∧ P k w.ctx ∧
      r.continuous = true ∧ r.channel = if stat then List.replicate k rs else []
  | 0, _ => ⟨[], _, _, rfl, by simp, rfl, rfl, rfl, rfl, h0, rfl, by simp [Run.init]⟩
  | k + 1, hk => by
    obtain ⟨l, r, w, h1, h2, h3, h4, h5, h6, h7, h8, h9⟩ := many_iterations hP record stat base name h0 n k (by omega)
    obtain ⟨v, s, e1, e2, e3⟩ := hP k w.ctx h7
    obtain ⟨f, o, l', g1, g2⟩ := one_iteration (cfg := ⟨true, n / 1, stat⟩) rfl (net := net) (w := w) (v := v) (s := s) h4 (by
      rw [h6]; show k < n / 1; rw [Nat.div_one]; omega) (by rw [h5]; exact e1) r h3 h8
    have g3 : ∀ q, r.run ⟨true, n / 1, stat⟩ l' = some q → NamedRun record stat base name test 1 n (l ++ l') q := by
      intro q hq
      unfold NamedRun at h1 ⊢
      rw [runs_append, h1, Option.bind_some, hq]
    refine ⟨l ++ l', _, { w with ctx := { s.ctx with records := [] }, number := w.number + 1, file := f }, g3 _ g1, ?_, rfl, h4, h5, ?_, e3, h8, ?_⟩
    · intro x hx
      exact (List.mem_append.1 hx).elim (h2 x) (g2 x)
    · show w.number + 1 = k + 1
      rw [h6]
    · dsimp only
      rw [h9, e2]
      cases stat
      · rfl
      · simp [List.replicate_succ']

/-- C109, the full claim, for tests without requests: there is a bound, independent of the number of iterations, on what a run keeps. -/
def Bounded (F : Type) [Rt F] (stat : Bool) : Prop := ∀ (base : Context F) (name : Str) (test : List (Expr F)) (t : Nat), base.requests = [] →
  Proper (.map base.inner) → ∃ B, ∀ n l r, NamedRun false stat base name test t n l r → kept r ≤ B

/-- C109: a test that reads what the iteration before left, `let a = a + a`, doubles it in every iteration. -/
theorem c109_doubles (net : Net) (record stat : Bool) (n : Nat) : ∃ l r, ∃ w : Worker F,
    NamedRun record stat ⟨[(c!"a", .str c!"x")], [], []⟩ c!"t" [twice] 1 n l r ∧ r.workers = [w] ∧ ∃ u, w.ctx.get c!"a" = some (.str u) ∧ u.length = 2 ^ n := by
  obtain ⟨l, r, w, h1, _, h3, _, _, _, h7, _⟩ := many_iterations (F := F) (net := net) (test := [twice]) (rs := [])
    (P := fun k c => c.requests = [] ∧ c.records = [] ∧ ∃ u, c.get c!"a" = some (.str u) ∧ u.length = 2 ^ k) (by
      rintro k c ⟨p1, p2, u, p3, p4⟩
      obtain ⟨s', u', e1, e2, e3⟩ := twice_run (F := F) net 1 ⟨c, [], []⟩ u (.str u) p3 rfl
      have e4 : runBlock net [twice] ⟨c, [], []⟩ = (.ok (.str u'), s') := by
        rw [← e1]
        simp only [runBlock, evalBlock, List.replicate_succ, List.replicate_zero]
      have e5 := c20_records net [twice] (⟨c, [], []⟩ : St F)
      have e6 := c19_requests_fixed net [twice] (⟨c, [], []⟩ : St F)
      rw [e4] at e5 e6
      obtain ⟨msgs, recs, lost, _, g2, g3, _⟩ := e5
      have hrecs : recs = [] := by
        cases recs with
        | nil => rfl
        | cons x recs => have := records_named g3 x (by simp); rw [p1] at this; cases this
      subst hrecs
      refine ⟨_, s', e4, by rw [g2]; simpa using p2, e6.trans p1, rfl, u', e2, ?_⟩
      rw [e3, p4, Nat.pow_succ 2 k]; omega) record stat ⟨[(c!"a", .str c!"x")], [], []⟩ c!"t" ⟨rfl, rfl, c!"x", rfl, rfl⟩ n n (Nat.le_refl _)
  exact ⟨l, r, w, h1, h3, h7.2.2⟩

/-- C109 is false, even without `--stat`: no bound holds for all numbers of iterations. -/
theorem c109_false (net : Net) (stat : Bool) : ¬ Bounded F stat := by
  intro h
  obtain ⟨B, hB⟩ := h ⟨[(c!"a", .str c!"x")], [], []⟩ c!"t" [twice] 1 rfl (.map (by simp) (by
    intro k v hp; cases List.mem_singleton.1 hp; exact .str _))
  obtain ⟨l, r, w, h1, h2, u, h3, h4⟩ := c109_doubles (F := F) net false stat B
  have h5 := hB B l r h1
  have h6 := bulkPairs_get h3
  simp only [bulk, h4] at h6
  have : B < 2 ^ B := Nat.lt_two_pow_self
  unfold kept at h5
  rw [h2] at h5
  simp only [List.map_cons, List.map_nil, List.sum_cons, List.sum_nil] at h5
  omega

/-- C109: with `--stat`, the records of all iterations may wait to be counted at the same time: nothing holds the threads back. -/
theorem c109_waiting (k : Clocks) (record : Bool) (n : Nat) : ∃ l, ∃ r : Run F,
    NamedRun record true pingContext c!"t" [.call c!"ping" []] 1 n l r ∧ r.channel = List.replicate n [pingRecord k] ∧ waiting r = 2 * n := by
  obtain ⟨l, r, w, h1, _, _, _, _, _, _, _, h9⟩ := many_iterations (F := F) (net := refusing k) (test := [.call c!"ping" []]) (rs := [pingRecord k])
    (P := fun _ c => c = pingContext) (by
      rintro _ c rfl
      exact ⟨_, _, rfl, rfl, rfl⟩) record true pingContext c!"t" rfl n n (Nat.le_refl _)
  refine ⟨l, r, h1, h9, ?_⟩
  rw [waiting, h9]
  simp [Nat.mul_comm]

/-- Concrete case for `c109_room_partial`: a test that sets a variable and then reads it. -/
example : KnownList ([] : List (Str × (Str × List (Expr F)))) (fun x => x ∉ letsList (F := F) [.letE c!"n" (.int 1), .letE c!"m" (.ident c!"n")])
    [.letE c!"n" (.int 1), .letE c!"m" (.ident c!"n")] := by
  simp only [KnownList, KnownIn, sure, sureList, letsList, lets]
  simp [more]

end Am
