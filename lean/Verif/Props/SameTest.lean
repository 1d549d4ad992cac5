import Verif.Spec.SameTest
import Verif.Props.WriteOut
import Verif.Props.Removing
import Verif.Props.Rearrange
/-! # C136: a test may be replaced by one that does the same -/
set_option linter.unusedSimpArgs false
set_option linter.unusedSectionVars false
namespace Am
open Spec
variable {F : Type} [Rt F]

theorem workerStep_stands {R : Context F → Context F → Prop} (cfg : Config) (cont : Bool) (i : Nat) (net : Net) {w w' : Worker F} (h : StandsWorker cfg.named R w w') :
    (w.step cfg cont i net = none ∧ w'.step cfg cont i net = none) ∨
    ∃ v v' e, w.step cfg cont i net = some (v, e) ∧ w'.step cfg cont i net = some (v', e) ∧ StandsWorker cfg.named R v v' := by
  obtain ⟨pc, name, test, ctx, number, file⟩ := w
  obtain ⟨pc', name', test', ctx', number', file'⟩ := w'
  obtain ⟨rfl, rfl, ht, rfl, rfl, hc⟩ := h
  dsimp only at ht hc
  unfold Worker.step
  cases pc with
  | head =>
    have hr := hc (.inl rfl)
    dsimp only
    split
    · split
      · exact .inr ⟨_, _, _, rfl, rfl, ⟨rfl, rfl, ht, rfl, rfl, fun _ => hr⟩⟩
      · exact .inr ⟨_, _, _, rfl, rfl, ⟨rfl, rfl, ht, rfl, rfl, fun _ => hr⟩⟩
    · exact .inr ⟨_, _, _, rfl, rfl, ⟨rfl, rfl, ht, rfl, rfl, fun _ => hr⟩⟩
  | eval =>
    have hr := hc (.inr (.inl rfl))
    obtain ⟨h1, h2, h3, h4⟩ := ht net ctx ctx' hr
    dsimp only
    generalize runBlock net test ⟨ctx, [], []⟩ = x at h1 h2 h3 h4
    generalize runBlock net test' ⟨ctx', [], []⟩ = y at h1 h2 h3 h4
    obtain ⟨r, ⟨⟨i1, q1, k1⟩, s1, o1⟩⟩ := x
    obtain ⟨r', ⟨⟨i2, q2, k2⟩, s2, o2⟩⟩ := y
    dsimp only at h1 h2 h3 h4
    subst h2 h3
    cases h1 with
    | ok v v' => exact .inr ⟨_, _, _, rfl, rfl, ⟨rfl, rfl, ht, rfl, rfl, fun _ => h4 v rfl⟩⟩
    | err e =>
      dsimp only
      split
      · exact .inr ⟨_, _, _, rfl, rfl, ⟨rfl, rfl, ht, rfl, rfl, fun hn => by simp at hn⟩⟩
      · next hn => exact .inr ⟨_, _, _, rfl, rfl, ⟨rfl, rfl, ht, rfl, rfl, fun hm => by simp [hn] at hm⟩⟩
    | panic => exact .inr ⟨_, _, _, rfl, rfl, ⟨rfl, rfl, ht, rfl, rfl, fun hn => by simp at hn⟩⟩
    | hang => exact .inr ⟨_, _, _, rfl, rfl, ⟨rfl, rfl, ht, rfl, rfl, fun hn => by simp at hn⟩⟩
  | print rs left =>
    cases left <;> refine .inr ⟨_, _, _, rfl, rfl, ⟨rfl, rfl, ht, rfl, rfl, fun hn => hc ?_⟩⟩ <;>
      (simp at hn; exact .inr (.inr (.inr ⟨hn, by simp, by simp⟩)))
  | write rs =>
    dsimp only
    split
    · next hn => exact .inr ⟨_, _, _, rfl, rfl, ⟨rfl, rfl, ht, rfl, rfl, fun _ => hc (.inr (.inr (.inr ⟨hn, by simp, by simp⟩)))⟩⟩
    · exact .inr ⟨_, _, _, rfl, rfl, ⟨rfl, rfl, ht, rfl, rfl, fun hn => by simp at hn⟩⟩
  | send rs => exact .inr ⟨_, _, _, rfl, rfl, ⟨rfl, rfl, ht, rfl, rfl, fun _ => hc (.inr (.inr (.inl ⟨rs, rfl⟩)))⟩⟩
  | done => exact .inl ⟨rfl, rfl⟩
  | stuck => exact .inl ⟨rfl, rfl⟩

theorem runStands_done {n : Bool} {R : Context F → Context F → Prop} {ws ws' : List (Worker F)} (h : Each (StandsWorker n R) ws ws') :
    (ws.all fun w => w.pc == .done) = ws'.all fun w => w.pc == .done := by
  induction h with
  | nil => rfl
  | cons h1 _ ih => simp only [List.all_cons, h1.pc, ih]

theorem runStep_stands {R : Context F → Context F → Prop} (cfg : Config) {r r' : Run F} (h : StandsRun cfg.named R r r') (s : RunStep) :
    (r.step cfg s = none ∧ r'.step cfg s = none) ∨ ∃ q q', r.step cfg s = some q ∧ r'.step cfg s = some q' ∧ StandsRun cfg.named R q q' := by
  obtain ⟨ws, ct, ch, ms, co, st, ou⟩ := r
  obtain ⟨ws', ct', ch', ms', co', st', ou'⟩ := r'
  obtain ⟨hw, rfl, rfl, rfl, rfl, rfl, rfl⟩ := h
  dsimp only at hw
  cases s with
  | work i net =>
    unfold Run.step
    dsimp only
    rcases hw.get i with ⟨h1, h2⟩ | ⟨w, w', h1, h2, h3⟩
    · rw [h1, h2]; exact .inl ⟨rfl, rfl⟩
    · rw [h1, h2]
      dsimp only
      rcases workerStep_stands cfg ct i net h3 with ⟨h4, h5⟩ | ⟨v, v', e, h4, h5, h6⟩
      · rw [h4, h5]; exact .inl ⟨rfl, rfl⟩
      · rw [h4, h5]
        exact .inr ⟨_, _, rfl, rfl, ⟨hw.set i h6, rfl, rfl, rfl, rfl, rfl, rfl⟩⟩
  | stop => exact .inr ⟨_, _, rfl, rfl, ⟨hw, rfl, rfl, rfl, rfl, rfl, rfl⟩⟩
  | drop =>
    unfold Run.step
    dsimp only
    split
    · exact .inr ⟨_, _, rfl, rfl, ⟨hw, rfl, rfl, rfl, rfl, rfl, rfl⟩⟩
    · exact .inl ⟨rfl, rfl⟩
  | collect =>
    unfold Run.step
    dsimp only
    split
    · exact .inl ⟨rfl, rfl⟩
    · split
      · split
        · exact .inr ⟨_, _, rfl, rfl, ⟨hw, rfl, rfl, rfl, rfl, rfl, rfl⟩⟩
        · unfold Run.disconnected Run.workersDone
          dsimp only
          rw [runStands_done hw]
          split
          · exact .inr ⟨_, _, rfl, rfl, ⟨hw, rfl, rfl, rfl, rfl, rfl, rfl⟩⟩
          · exact .inl ⟨rfl, rfl⟩
      · exact .inr ⟨_, _, rfl, rfl, ⟨hw, rfl, rfl, rfl, rfl, rfl, rfl⟩⟩

/-- C136: if the tests of one run may stand for those of another, the two runs are the same, step by step: the same can happen, with the same output, the same
record files and the same statistics. -/
theorem c136_run {R : Context F → Context F → Prop} (cfg : Config) {r r' : Run F} (h : StandsRun cfg.named R r r') (sched : List RunStep) :
    (r.run cfg sched = none ∧ r'.run cfg sched = none) ∨ ∃ q q', r.run cfg sched = some q ∧ r'.run cfg sched = some q' ∧ StandsRun cfg.named R q q' := by
  induction sched generalizing r r' with
  | nil => exact .inr ⟨r, r', rfl, rfl, h⟩
  | cons s l ih =>
    unfold Run.run
    rcases runStep_stands cfg h s with ⟨h2, h3⟩ | ⟨q, q', h2, h3, h4⟩
    · rw [h2, h3]; exact .inl ⟨rfl, rfl⟩
    · rw [h2, h3]; exact ih h4

theorem standsFiles {n : Bool} {R : Context F → Context F → Prop} {l m : List (Worker F)} (h : Each (StandsWorker n R) l m) :
    m.map (·.file) = l.map (·.file) := by
  induction h with
  | nil => rfl
  | cons h1 _ ih => simp only [List.map_cons, h1.file, ih]

/-- C136: so for the runs of `am test` with the name of the test: every run of the one test is one of the other, with the same output and statistics and the
same record file for every thread. -/
theorem c136_named {R : Context F → Context F → Prop} {record stat : Bool} {base base' : Context F} {name : Str} {test test' : List (Expr F)} {t n : Nat}
    (ht : StandsFor R test test') (hb : R base.clone base'.clone) {sched : List RunStep} {q : Run F} (h : NamedRun record stat base name test t n sched q) :
    ∃ q', NamedRun record stat base' name test' t n sched q' ∧ q'.out = q.out ∧ q'.stats = q.stats ∧ q'.workers.map (·.file) = q.workers.map (·.file) := by
  have hw : StandsWorker true R (fresh record base name test) (fresh record base' name test') := ⟨rfl, rfl, ht, rfl, rfl, fun _ => hb⟩
  have hs : StandsRun true R (Run.init (List.replicate t (fresh record base name test))) (Run.init (List.replicate t (fresh record base' name test'))) :=
    ⟨each_replicate hw t, rfl, rfl, rfl, rfl, rfl, rfl⟩
  rcases c136_run ⟨true, n / t, stat⟩ hs sched with ⟨h1, _⟩ | ⟨p, p', h1, h2, h3⟩
  · unfold NamedRun at h
    rw [h1] at h
    cases h
  · unfold NamedRun at h
    rw [h1] at h
    cases h
    exact ⟨p', h2, h3.out.symm, h3.stats.symm, standsFiles h3.workers⟩

/-- C136: and so for the runs of all tests. -/
theorem c136_all {R : Context F → Context F → Prop} {record stat : Bool} {base base' : Context F} {tests tests' : List (Str × List (Expr F))}
    (ht : Each (fun p p' => p.1 = p'.1 ∧ StandsFor R p.2 p'.2) tests tests') (hb : R base.clone base'.clone) {sched : List RunStep} {q : Run F}
    (h : AllRun record stat base tests sched q) :
    ∃ q', AllRun record stat base' tests' sched q' ∧ q'.out = q.out ∧ q'.stats = q.stats ∧ q'.workers.map (·.file) = q.workers.map (·.file) := by
  have hw : Each (StandsWorker false R) (tests.map fun p => fresh record base p.1 p.2) (tests'.map fun p => fresh record base' p.1 p.2) := by
    clear h
    induction ht with
    | nil => exact .nil
    | cons h1 _ ih => exact .cons ⟨rfl, h1.1, h1.2, rfl, rfl, fun _ => hb⟩ ih
  have hs : StandsRun false R (Run.init (tests.map fun p => fresh record base p.1 p.2)) (Run.init (tests'.map fun p => fresh record base' p.1 p.2)) :=
    ⟨hw, rfl, rfl, rfl, rfl, rfl, rfl⟩
  rcases c136_run ⟨false, 1, stat⟩ hs sched with ⟨h1, _⟩ | ⟨p, p', h1, h2, h3⟩
  · unfold AllRun at h
    rw [h1] at h
    cases h
  · unfold AllRun at h
    rw [h1] at h
    cases h
    exact ⟨p', h2, h3.out.symm, h3.stats.symm, standsFiles h3.workers⟩

theorem endAlike_refl (r : Res (Value F)) : EndAlike r r := by
  cases r <;> constructor

/-- C136: a test that gives the same as another from every state may stand for it. -/
theorem c136_same {test test' : List (Expr F)} (h : ∀ net s, runBlock net test s = runBlock net test' s) : StandsFor Eq test test' := by
  rintro net c _ rfl
  rw [h]
  exact ⟨endAlike_refl _, rfl, rfl, fun _ _ => rfl⟩

/-- C136: the statements C129 tells may also be removed from a test, if nothing else in the test reads the variables they set: the next iteration still has
them. -/
theorem c136_remove {table : List (Str × (Str × List (Expr F)))} {before b after : List (Expr F)} (hq : QuietIn table b)
    (ha : KnownList table (fun x => x ∉ letsList b) after) (hk : KnownList table (fun x => x ∉ letsList b) (before ++ after)) (hr : after ≠ [])
    (hok : ∀ net (s : St F) v s0, s.ctx.requests = table → runBlock net before s = (.ok v, s0) → ∃ w, (runBlock net b s0).1 = .ok w) :
    StandsFor (AgreeOn table fun x => x ∉ letsList b) (before ++ (b ++ after)) (before ++ after) := by
  rintro net c c' ⟨h1, h2, h3, h4⟩
  obtain ⟨e1, e2⟩ := c129_block net before b after ⟨c, [], []⟩ (h1 ▸ hq) (h1 ▸ ha) hr fun v s0 => hok net _ v s0 h1
  have hal : Alike (fun x => x ∉ letsList b) (⟨c, [], []⟩ : St F) ⟨c', [], []⟩ := ⟨h1.trans h2.symm, h3, rfl, rfl, h4⟩
  obtain ⟨e3, e4, _⟩ := c77_block net (before ++ after) _ _ _ hal (h1 ▸ hk)
  refine ⟨(e1.trans e3) ▸ endAlike_refl _, e2.out.trans e4.out, e2.records.trans e4.records, fun _ _ => ⟨?_, ?_, rfl, fun x hx => ?_⟩⟩
  · exact (c19_requests_fixed net _ _).trans h1
  · exact (c19_requests_fixed net _ _).trans h2
  · exact (e2.vars x hx).trans (e4.vars x hx)

/-- C136: so every run of a test is also one of the test without those statements. -/
theorem c136_removed {record stat : Bool} {base : Context F} {name : Str} {t n : Nat} {before b after : List (Expr F)} (hq : QuietIn base.requests b)
    (ha : KnownList base.requests (fun x => x ∉ letsList b) after) (hk : KnownList base.requests (fun x => x ∉ letsList b) (before ++ after)) (hr : after ≠ [])
    (hok : ∀ net (s : St F) v s0, s.ctx.requests = base.requests → runBlock net before s = (.ok v, s0) → ∃ w, (runBlock net b s0).1 = .ok w)
    {sched : List RunStep} {q : Run F} (h : NamedRun record stat base name (before ++ (b ++ after)) t n sched q) :
    ∃ q', NamedRun record stat base name (before ++ after) t n sched q' ∧ q'.out = q.out ∧ q'.stats = q.stats ∧ q'.workers.map (·.file) = q.workers.map (·.file) :=
  c136_named (c136_remove hq ha hk hr hok) ⟨rfl, rfl, rfl, fun _ _ => rfl⟩ h

/-- The statement `let a = 1;` may be removed from the test `let a = 1; let b = 2; b`. -/
example : StandsFor (F := F) (AgreeOn [] fun x => x ∉ [c!"a"]) [.letE c!"a" (.int 1), .letE c!"b" (.int 2), .ident c!"b"] [.letE c!"b" (.int 2), .ident c!"b"] := by
  refine c136_remove (before := []) (b := [.letE c!"a" (.int 1)]) (after := [.letE c!"b" (.int 2), .ident c!"b"]) ?_ ?_ ?_ (by simp) ?_
  · simp [QuietIn, calledList, called]
  · simp [KnownList, KnownIn, more, sure, letsList, lets]
  · simp [KnownList, KnownIn, more, sure, letsList, lets]
  · intro net s v s0 _ h
    exact ⟨.int 1, rfl⟩

/-- C136: statements that do not depend on each other can also change places in a test (C111). -/
theorem c136_swap {table : List (Str × (Str × List (Expr F)))} {before a b after : List (Expr F)} (hi : NoInfluence table a b) (ha : a ≠ []) (hb : b ≠ [])
    (hr : after ≠ [])
    (hok : ∀ net (s : St F) v s0, s.ctx.requests = table → runBlock net before s = (.ok v, s0) → ∃ w, (runBlock net b s0).1 = .ok w) :
    StandsFor (AgreeOn table fun _ => True) (before ++ (a ++ (b ++ after))) (before ++ (b ++ (a ++ after))) := by
  rintro net c c' ⟨h1, h2, h3, h4⟩
  obtain ⟨e1, _, e2, e3, e4⟩ := c111_block net before a b after ⟨c, [], []⟩ (h1 ▸ hi) ha hb hr fun v s0 => hok net _ v s0 h1
  have hal : Alike (fun _ => True) (⟨c, [], []⟩ : St F) ⟨c', [], []⟩ := ⟨h1.trans h2.symm, h3, rfl, rfl, h4⟩
  obtain ⟨e5, e6, _⟩ := c77_block net (before ++ (b ++ (a ++ after))) _ _ _ hal (known_list _ fun _ => trivial)
  refine ⟨(e1.trans e5) ▸ endAlike_refl _, e2.trans e6.out, e3.trans e6.records, fun v hv => ⟨?_, ?_, rfl, fun x hx => ?_⟩⟩
  · exact (c19_requests_fixed net _ _).trans h1
  · exact (c19_requests_fixed net _ _).trans h2
  · exact ((e4 v hv).vars x hx).trans (e6.vars x hx)

/-- C136: and an expression may be given a name in a test (C112), if the test with the name reads the name only after it is set. -/
theorem c136_name {table : List (Str × (Str × List (Expr F)))} {D : Str → Prop} {x : Str} {e : Expr F} {before p q : List (Expr F)} (hc : OnlyComputes table D e)
    (hn : NamingList table D x e p q) (hp : p ≠ []) (hk : KnownList table (· ≠ x) (before ++ .letE x e :: q))
    (hok : ∀ net (s : St F) v s0, s.ctx.requests = table → runBlock net before s = (.ok v, s0) → ∃ w, (eval net e s0).1 = .ok w) :
    StandsFor (AgreeOn table (· ≠ x)) (before ++ p) (before ++ .letE x e :: q) := by
  rintro net c c' ⟨h1, h2, h3, h4⟩
  obtain ⟨e1, e2⟩ := c112_block net before p q ⟨c, [], []⟩ (h1 ▸ hc) (h1 ▸ hn) hp fun v s0 => hok net _ v s0 h1
  have hal : Alike (· ≠ x) (⟨c, [], []⟩ : St F) ⟨c', [], []⟩ := ⟨h1.trans h2.symm, h3, rfl, rfl, h4⟩
  obtain ⟨e3, e4, _⟩ := c77_block net (before ++ .letE x e :: q) _ _ _ hal (h1 ▸ hk)
  refine ⟨(e1.trans e3) ▸ endAlike_refl _, e2.out.trans e4.out, e2.records.trans e4.records, fun _ _ => ⟨?_, ?_, rfl, fun y hy => ?_⟩⟩
  · exact (c19_requests_fixed net _ _).trans h1
  · exact (c19_requests_fixed net _ _).trans h2
  · exact (e2.vars y hy).trans (e4.vars y hy)

/-- In the test `let a = 1; let b = 2; a` the first two statements can change places. -/
example : StandsFor (F := F) (AgreeOn [] fun _ => True) [.letE c!"a" (.int 1), .letE c!"b" (.int 2), .ident c!"a"]
    [.letE c!"b" (.int 2), .letE c!"a" (.int 1), .ident c!"a"] := by
  refine c136_swap (before := []) (a := [.letE c!"a" (.int 1)]) (b := [.letE c!"b" (.int 2)]) (after := [.ident c!"a"]) ⟨?_, ?_, ?_, ?_⟩ (by simp) (by simp) (by simp) ?_
  · simp [KnownList, KnownIn]
  · simp [KnownList, KnownIn]
  · simp [letsList, lets]
  · simp [QuietIn, calledList, called]
  · intro net s v s0 _ h
    exact ⟨.int 2, rfl⟩

/-- In the test `2 * length("abc")` a name may be given to `length("abc")`. -/
example : StandsFor (F := F) (AgreeOn [] (· ≠ c!"n")) [.binary ⟨.Mul, c!"*"⟩ (.int 2) (.call c!"length" [.str c!"abc"])]
    [.letE c!"n" (.call c!"length" [.str c!"abc"]), .binary ⟨.Mul, c!"*"⟩ (.int 2) (.ident c!"n")] := by
  refine c136_name (before := []) (D := fun _ => False) ⟨?_, rfl, ?_⟩ (.cons (.binary (by decide) (.int _) .here) .nil) (by simp) ?_ ?_
  · simp only [KnownIn, KnownList, KnownCall]; simp [amGet]
  · intro f hf
    have : f = c!"length" := by simpa [calledList, called] using hf
    subst this
    exact ⟨rfl, by decide, by decide⟩
  · simp [KnownIn, KnownList, KnownCall, amGet, more, sure]
  · rintro net ⟨⟨inner, table, recs⟩, sent, out⟩ v s0 ht h
    cases h
    cases ht
    exact ⟨.int 3, rfl⟩

/-- C136: what stands before the statements must not read their variables either, though C129 allows that for a script that runs once: in the test
`print(a); let a = "y"; 1`, begun with `a` as `x`, the second iteration prints `y`. -/
theorem c136_needed (net : Net) :
    (runBlock net [.call c!"print" [.ident c!"a"], .letE c!"a" (.str c!"y"), .int 1] (⟨⟨[(c!"a", .str c!"x")], [], []⟩, [], []⟩ : St F)) =
      (.ok (.int 1), ⟨⟨[(c!"a", .str c!"y")], [], []⟩, [], c!"x"⟩) ∧
    (runBlock net [.call c!"print" [.ident c!"a"], .int 1] (⟨⟨[(c!"a", .str c!"x")], [], []⟩, [], []⟩ : St F)) =
      (.ok (.int 1), ⟨⟨[(c!"a", .str c!"x")], [], []⟩, [], c!"x"⟩) ∧
    (runBlock net [.call c!"print" [.ident c!"a"], .letE c!"a" (.str c!"y"), .int 1] (⟨⟨[(c!"a", .str c!"y")], [], []⟩, [], []⟩ : St F)).2.out = c!"y" :=
  ⟨rfl, rfl, rfl⟩

end Am
