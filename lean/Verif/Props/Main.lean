import Verif.Spec.Main
import Verif.Props.Programs
import Verif.Props.Parsing
import Verif.Props.Running
/-! # C71: `am test` from the sources to the threads -/
set_option linter.unusedSimpArgs false
set_option linter.unusedSectionVars false
namespace Am
open Spec
variable {F : Type} [Rt F]

theorem lastTest_none (n : Str) (items : List (Item F)) : lastTest n items = none ↔ ∀ b, Item.test n b ∉ items := by
  induction items with
  | nil => simp [lastTest]
  | cons i items ih =>
    cases i with
    | expr e => simpa [lastTest] using ih
    | request a c d => simpa [lastTest] using ih
    | test m c =>
      by_cases hm : n = m
      · subst hm
        simp only [lastTest, if_true, Option.or_eq_none_iff]
        constructor
        · intro h; cases h.2
        · intro h; exact absurd (List.mem_cons_self ..) (h c)
      · simp [lastTest, ih, Ne.symm hm, hm]

theorem lastTest_iff (n : Str) (items : List (Item F)) (b : List (Expr F)) :
    lastTest n items = some b ↔ ∃ before after, items = before ++ .test n b :: after ∧ ∀ b', Item.test n b' ∉ after := by
  induction items with
  | nil => simp [lastTest]
  | cons i items ih =>
    have skip : i ≠ .test n b ∨ (∃ d, lastTest n items = some d) → ((∃ before after, items = before ++ .test n b :: after ∧ ∀ b', Item.test n b' ∉ after) ↔
        ∃ before after, i :: items = before ++ .test n b :: after ∧ ∀ b', Item.test n b' ∉ after) := by
      intro hi
      constructor
      · rintro ⟨x, y, rfl, h⟩
        exact ⟨i :: x, y, rfl, h⟩
      · rintro ⟨x, y, he, h⟩
        cases x with
        | nil =>
          simp only [List.nil_append, List.cons.injEq] at he
          rcases hi with hi | ⟨d, hd⟩
          · exact absurd he.1 hi
          · rw [he.2, (lastTest_none n y).2 h] at hd; cases hd
        | cons a x => simp only [List.cons_append, List.cons.injEq] at he; exact ⟨x, y, he.2, h⟩
    cases i with
    | expr e => rw [← skip (.inl (by simp)), ← ih]; rfl
    | request a c d => rw [← skip (.inl (by simp)), ← ih]; rfl
    | test m c =>
      simp only [lastTest]
      cases hl : lastTest n items with
      | some d => rw [← skip (.inr ⟨d, hl⟩), ← ih, hl]; rfl
      | none =>
        by_cases hm : m = n ∧ c = b
        · obtain ⟨rfl, rfl⟩ := hm
          simp only [if_true, Option.none_or, true_iff]
          exact ⟨[], items, rfl, (lastTest_none _ _).1 hl⟩
        · rw [← skip (.inl (by simpa using hm)), ← ih, hl]
          by_cases h1 : m = n
          · simp only [h1, if_true, Option.none_or, Option.some.injEq, reduceCtorEq, iff_false]
            exact fun h2 => hm ⟨h1, h2⟩
          · simp [h1]

/-- The table of tests of the parsed sources. -/
theorem tests_of (items : List (Item F)) : TestsOf items (items.foldl addItem (⟨[], [], []⟩ : Source F)).tests := by
  obtain ⟨-, -, h3, -, h5⟩ := fold_tables items (⟨[], [], []⟩ : Source F)
  have hn := h5 (by simp [KeysNodup])
  refine ⟨hn, fun n b => ?_⟩
  rw [← lastTest_iff]
  have h3 : amGet n (items.foldl addItem (⟨[], [], []⟩ : Source F)).tests = lastTest n items := by simpa [amGet] using h3 n
  rw [← h3]
  exact ⟨fun h => amGet_of_mem hn h, fun h => amGet_mem h⟩

theorem tests_get (items : List (Item F)) (n : Str) : amGet n (items.foldl addItem (⟨[], [], []⟩ : Source F)).tests = lastTest n items := by
  simpa [amGet] using (fold_tables items (⟨[], [], []⟩ : Source F)).2.2.1 n

theorem nodup_of_keys {m : List (Str × List (Expr F))} (h : (m.map Prod.fst).Nodup) : m.Nodup := by
  rw [List.nodup_iff_pairwise_ne, List.pairwise_map] at *
  exact h.imp fun h e => h (by rw [e])

theorem Spec.TestsOf.perm {items : List (Item F)} {a b : List (Str × List (Expr F))} (ha : TestsOf items a) (hb : TestsOf items b) : a.Perm b := by
  classical
  exact (List.perm_ext_iff_of_nodup (nodup_of_keys ha.distinct) (nodup_of_keys hb.distinct)).2 fun p => (ha.last p.1 p.2).trans (hb.last p.1 p.2).symm

theorem Spec.TestsOf.of_perm {items : List (Item F)} {a b : List (Str × List (Expr F))} (ha : TestsOf items a) (h : b.Perm a) : TestsOf items b :=
  ⟨(h.map Prod.fst).nodup_iff.2 ha.distinct, fun n c => (h.mem_iff).trans (ha.last n c)⟩

theorem setup_items (net : Net) (text : Str) (items : List (Item F)) (hp : parse text = .ok (items.foldl addItem ⟨[], [], []⟩)) :
    setup net text ⟨Context.new, [], []⟩ =
      match runBlock net (exprsOf items) (begins items) with
      | (.ok _, s) => (.ok (some (items.foldl addItem (⟨[], [], []⟩ : Source F)).tests), s)
      | (.err e, s) => (.ok none, { s with out := s.out ++ e ++ c!"\n" })
      | (.panic, s) => (.panic, s)
      | (.hang, s) => (.hang, s) := by
  have he : (items.foldl addItem (⟨[], [], []⟩ : Source F)).exprs = exprsOf items := by simpa using (fold_tables items ⟨[], [], []⟩).1
  have hx : (Context.new : Context F).extend (items.foldl addItem (⟨[], [], []⟩ : Source F)).requests = (begins items).ctx := by
    unfold Context.extend
    rw [extend_items (Context.new : Context F).requests items ⟨[], [], []⟩ (by simp [KeysNodup])]
    rfl
  unfold setup
  rw [hp]
  dsimp only
  rw [he, hx]
  change (match runBlock net (exprsOf items) (begins items) with
    | (.ok _, s) => _
    | (.err e, s) => _
    | (.panic, s) => _
    | (.hang, s) => _) = _
  rcases runBlock net (exprsOf items) (begins items) with ⟨r, s⟩
  cases r <;> rfl

theorem limits_number (args : TestArgs) : runNumber args (limits args.duration args.number).2 := by
  unfold runNumber limits
  cases args.duration with
  | none => exact .inl ⟨rfl, rfl⟩
  | some d => exact .inr ⟨by simp, rfl⟩

theorem runNumber_unique {args : TestArgs} {n : Nat} (h : runNumber args n) : n = (limits args.duration args.number).2 := by
  unfold limits
  rcases h with ⟨h, rfl⟩ | ⟨h, rfl⟩
  · rw [h]
  · cases hd : args.duration with
    | none => exact absurd hd h
    | some d => rfl

theorem startTest_items (net : Net) (args : TestArgs) (text : Str) (items : List (Item F)) (hp : parse text = .ok (items.foldl addItem ⟨[], [], []⟩)) (w : Started F) (s : St F) :
    (∃ order : List (Str × List (Expr F)) → List (Str × List (Expr F)), (∀ l, (order l).Perm l) ∧ startTest order net args text = (w, s)) ↔
      TestStarts net args items w s := by
  have hrun : ∀ r s, RunsBlock net .null (exprsOf items) (begins items) r s ↔ runBlock net (exprsOf items) (begins items) = (r, s) := fun r s =>
    c63_block net _ _ _ _ (.map (by simp [begins]) (fun _ _ h => (nomatch h)))
  have htab := tests_of items
  have hget := tests_get items
  constructor
  · rintro ⟨order, ho, h⟩
    unfold startTest at h
    rw [setup_items net text items hp] at h
    rcases hr : runBlock net (exprsOf items) (begins items) with ⟨r, s1⟩
    have hb := (hrun _ _).2 hr
    rw [hr] at h
    cases r with
    | err e => cases h; exact .failed e s1 hb
    | panic => cases h; exact .crash _ hb
    | hang => cases h; exact .endless _ hb
    | ok v =>
      dsimp only at h
      cases hn : args.name with
      | none =>
        rw [hn, all_start] at h
        cases h
        exact .all v _ _ hb hn (htab.of_perm (ho _))
      | some name =>
        rw [hn] at h
        cases hl : lastTest name items with
        | none =>
          have : startWorkers order args.record s1.ctx (items.foldl addItem (⟨[], [], []⟩ : Source F)).tests (some name) args.threads
              (limits args.duration args.number).2 args.stat = .ok none := by
            simp only [startWorkers, hget, hl]
            rfl
          rw [this] at h
          cases h
          have hs : (sayLine (F := F) (c!"Test not found: " ++ (some name).getD []) s1).2 =
              { s1 with out := s1.out ++ c!"Test not found: " ++ name ++ c!"\n" } := by
            simp [sayLine, M.modify]
          rw [hs]
          exact .unknown v s1 name hb hn ((lastTest_none _ _).1 hl)
        | some test =>
          obtain ⟨before, after, hi, ha⟩ := (lastTest_iff _ _ _).1 hl
          by_cases hz : args.threads = 0
          · have : startWorkers order args.record s1.ctx (items.foldl addItem (⟨[], [], []⟩ : Source F)).tests (some name) args.threads
                (limits args.duration args.number).2 args.stat = .panic := by
              simp only [startWorkers, hget, hl, perThread, if_pos hz]
              rfl
            rw [this] at h
            cases h
            exact .noThreads v _ name test hb hn (by rw [hi]; simp) hz
          · rw [named_start _ _ _ _ _ test _ _ _ (by rw [hget, hl]) hz] at h
            cases h
            exact .named v _ _ name test before after hb hn hi ha hz (limits_number args)
  · intro h
    have self : ∀ w s, startTest (fun l => l) net args text = (w, s) →
        ∃ order : List (Str × List (Expr F)) → List (Str × List (Expr F)), (∀ l, (order l).Perm l) ∧ startTest order net args text = (w, s) :=
      fun w s h => ⟨fun l => l, fun l => .refl l, h⟩
    cases h with
    | failed e s hb =>
      apply self
      unfold startTest
      rw [setup_items net text items hp, (hrun _ _).1 hb]
    | crash s hb =>
      apply self
      unfold startTest
      rw [setup_items net text items hp, (hrun _ _).1 hb]
    | endless s hb =>
      apply self
      unfold startTest
      rw [setup_items net text items hp, (hrun _ _).1 hb]
    | named v s n name test before after hb hn hi ha hz hnum =>
      apply self
      unfold startTest
      rw [setup_items net text items hp, (hrun _ _).1 hb, runNumber_unique hnum]
      dsimp only
      rw [hn, named_start _ _ _ _ _ test _ _ _ (by rw [hget, (lastTest_iff _ _ _).2 ⟨before, after, hi, ha⟩]) hz]
    | noThreads v s name b hb hn hi hz =>
      apply self
      unfold startTest
      rw [setup_items net text items hp, (hrun _ _).1 hb]
      dsimp only
      cases hl : lastTest name items with
      | none => exact absurd hi ((lastTest_none _ _).1 hl b)
      | some test =>
        have : startWorkers (fun l => l) args.record s.ctx (items.foldl addItem (⟨[], [], []⟩ : Source F)).tests args.name args.threads
            (limits args.duration args.number).2 args.stat = .panic := by
          simp only [startWorkers, hn, hget, hl, perThread, if_pos hz]
          rfl
        rw [this]
    | unknown v s name hb hn hi =>
      apply self
      unfold startTest
      rw [setup_items net text items hp, (hrun _ _).1 hb]
      dsimp only
      have : startWorkers (fun l => l) args.record s.ctx (items.foldl addItem (⟨[], [], []⟩ : Source F)).tests args.name args.threads
          (limits args.duration args.number).2 args.stat = .ok none := by
        simp only [startWorkers, hn, hget, (lastTest_none _ _).2 hi]
        rfl
      rw [this, hn]
      simp [sayLine, M.modify]
    | all v s tests hb hn hts =>
      classical
      refine ⟨fun l => if l = (items.foldl addItem (⟨[], [], []⟩ : Source F)).tests then tests else l, fun l => ?_, ?_⟩
      · dsimp only
        split
        · rename_i h; rw [h]; exact hts.perm htab
        · exact .refl l
      · unfold startTest
        rw [setup_items net text items hp, (hrun _ _).1 hb]
        dsimp only
        rw [hn, all_start]
        simp

/-- C71: for a text of the published grammar, and whatever order the map of tests is gone through in, `am test` starts what the rules say, and nothing else. -/
theorem c71_starts (net : Net) (args : TestArgs) (text : Str) (items : List (Item F)) (ht : ProgramText text items) (w : Started F) (s : St F) :
    (∃ order : List (Str × List (Expr F)) → List (Str × List (Expr F)), (∀ l, (order l).Perm l) ∧ startTest order net args text = (w, s)) ↔
      TestStarts net args items w s :=
  startTest_items net args text items (program_items ht) w s

/-- C71 for the whole accepted language. -/
theorem c71_accepted (net : Net) (args : TestArgs) (text : Str) (items : List (Item F)) (ht : Accepted text items) (w : Started F) (s : St F) :
    (∃ order : List (Str × List (Expr F)) → List (Str × List (Expr F)), (∀ l, (order l).Perm l) ∧ startTest order net args text = (w, s)) ↔
      TestStarts net args items w s :=
  startTest_items net args text items (accepted_items ht) w s

/-- C71: a text the parser rejects: its error is printed and nothing is started. -/
theorem c71_rejected (order : List (Str × List (Expr F)) → List (Str × List (Expr F))) (net : Net) (args : TestArgs) (text : Str) (e : Str)
    (h : (parse text : Res (Source F)) = .err e) : startTest order net args text = (.ended, ⟨Context.new, [], e ++ c!"\n"⟩) := by
  unfold startTest setup
  rw [h]
  rfl

/-- C71: what is started for a name is what the theorems about runs (C49 to C53) are about; in particular, no more than
`threads * (number / threads)` iterations happen, and `--number` does not matter when a duration is given. -/
theorem c71_named (order : List (Str × List (Expr F)) → List (Str × List (Expr F))) (ho : ∀ l, (order l).Perm l) (net : Net) (args : TestArgs) (text : Str)
    (items : List (Item F)) (ht : ProgramText text items) (name : Str) (hn : args.name = some name) (cfg : Config) (ws : List (Worker F)) (s : St F)
    (h : startTest order net args text = (.threads cfg ws, s)) (hw : ws ≠ []) :
    ∃ test n, runNumber args n ∧ ws = List.replicate args.threads (fresh args.record s.ctx name test) ∧ cfg = ⟨true, n / args.threads, args.stat⟩ ∧
      ∀ l r, (Run.init ws).run cfg l = some r ↔ NamedRun args.record args.stat s.ctx name test args.threads n l r := by
  have := (c71_starts net args text items ht _ _).1 ⟨order, ho, h⟩
  generalize hg : Started.threads cfg ws = g at this
  cases this with
  | failed e s hb => cases hg
  | crash s hb => cases hg
  | endless s hb => cases hg
  | noThreads v s name b hb hn hi hz => cases hg
  | unknown v s name hb hn hi => cases hg; exact absurd rfl hw
  | all v s tests hb hn' hts => rw [hn] at hn'; cases hn'
  | named v s n name' test before after hb hn' hi ha hz hnum =>
    cases hg
    rw [hn] at hn'
    cases hn'
    exact ⟨test, n, hnum, rfl, rfl, fun l r => Iff.rfl⟩

/-- Concrete case: `am test t --threads 2 --number 5` on `7 test t { 1 }`: two threads of two iterations each. -/
theorem main_text : ProgramText (F := F) c!"7 test t { 1 }" [.expr (.int 7), .test c!"t" [.int 1]] := by
  obtain ⟨b, h⟩ := c02_lex_lossless c!"7 test t { 1 }"
  refine ⟨b, _, h, ?_⟩
  exact .next (.expr (.int 7)) _ ⟨.Test, c!"test"⟩ [⟨.Integer, c!"7"⟩] [⟨.Ident, c!"t"⟩, ⟨.Lb, c!"{"⟩, ⟨.Integer, c!"1"⟩, ⟨.Rb, c!"}"⟩, Token.eof] rfl
    (.expr _ _ (.int ⟨.Integer, c!"7"⟩ _ rfl (parseI64_iff.1 rfl)))
    (.next (.test c!"t" [.int 1]) [] Token.eof [⟨.Test, c!"test"⟩, ⟨.Ident, c!"t"⟩, ⟨.Lb, c!"{"⟩, ⟨.Integer, c!"1"⟩, ⟨.Rb, c!"}"⟩] [] rfl
      (.test ⟨.Test, c!"test"⟩ ⟨.Ident, c!"t"⟩ [.int 1] [⟨.Lb, c!"{"⟩, ⟨.Integer, c!"1"⟩, ⟨.Rb, c!"}"⟩] rfl rfl
        (.mk _ _ _ [⟨.Integer, c!"1"⟩] rfl rfl (.last _ _ (.int ⟨.Integer, c!"1"⟩ _ rfl (parseI64_iff.1 rfl)))))
      (.nil _ rfl))

example (net : Net) : ∃ s : St F, TestStarts net ⟨some c!"t", 2, none, 5, false, true⟩ [.expr (.int 7), .test c!"t" [.int 1]]
    (.threads ⟨true, 2, true⟩ (List.replicate 2 (fresh false s.ctx c!"t" [.int 1]))) s :=
  ⟨_, .named (.int 7) _ 5 c!"t" [.int 1] [.expr (.int 7)] [] ((c63_block net _ _ _ _ (.map (by simp [begins]) (by simp [begins]))).2 rfl) rfl rfl
    (fun _ h => (nomatch h)) (by decide) (.inl ⟨rfl, rfl⟩)⟩

end Am
