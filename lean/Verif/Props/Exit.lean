import Verif.Spec.Exit
import Verif.Props.Main
import Verif.Props.Commands
import Verif.Props.Launching
/-! # C80: the exit status -/
set_option linter.unusedSimpArgs false
set_option linter.unusedSectionVars false
namespace Am
open Spec
variable {F : Type} [Rt F]

theorem sources_unique {root : Str} {files : Node} {a b : Str} (ha : Sources root files a) (hb : Sources root files b) : a = b := by
  obtain ⟨-, fa, a1, a2, rfl⟩ := ha
  obtain ⟨-, fb, b1, b2, rfl⟩ := hb
  rw [c57_unique fa fb (fun f => (a1 f.1 f.2).trans (b1 f.1 f.2).symm) a2 b2]

theorem sources_read {root : Str} {files : Node} (hd : Distinct files) (hr : ∀ path, ¬ Below root files path none) :
    ∃ text, Sources root files text ∧ readToString root files = .ok text := by
  obtain ⟨fs, h1, h2, h3⟩ := c57_read root files hd fun path c h hc => hr path (hc ▸ h)
  exact ⟨_, ⟨hr, fs, h1, h2, rfl⟩, h3⟩

theorem accepted_unique {text : Str} {a b : List (Item F)} (ha : Accepted text a) (hb : Accepted text b) : a = b := by
  obtain ⟨_, ta, a1, a2⟩ := ha
  obtain ⟨_, tb, b1, b2⟩ := hb
  rw [c02_layout_unique _ _ _ a1] at a2
  rw [c02_layout_unique _ _ _ b1] at b2
  exact c79_unique a2 b2

theorem accepted_not_endless {text : Str} {items : List (Item F)} (h : Accepted text items) : ¬ Endless F (segment text) := by
  obtain ⟨_, t, h1, h2⟩ := h
  rw [c02_layout_unique _ _ _ h1] at h2
  exact c79_disjoint text items h2

theorem begins_proper (items : List (Item F)) : Proper (.map (begins items).ctx.inner) := .map (by simp [begins]) (by simp [begins])

theorem runs_unique {net : Net} {items : List (Item F)} {r r' : Res (Value F)} {s s' : St F}
    (h : RunsBlock net .null (exprsOf items) (begins items) r s) (h' : RunsBlock net .null (exprsOf items) (begins items) r' s') : r = r' ∧ s = s' := by
  have h1 := (c63_block net _ _ _ _ (begins_proper items)).1 h
  have h2 := (c63_block net _ _ _ _ (begins_proper items)).1 h'
  rw [h1] at h2
  cases h2
  exact ⟨rfl, rfl⟩

/-- The number of threads started, and whether they record. -/
theorem starts_threads {net : Net} {args : TestArgs} {items : List (Item F)} {cfg : Config} {ws : List (Worker F)} {s : St F}
    (h : TestStarts net args items (.threads cfg ws) s) :
    (∃ v s1, RunsBlock net .null (exprsOf items) (begins items) (.ok v) s1) ∧ ThreadCount args items ws.length ∧
    (∀ w ∈ ws, w.file.isSome = args.record) ∧ (∀ name b, args.name = some name → Item.test name b ∈ items → args.threads ≠ 0) := by
  generalize hg : Started.threads cfg ws = g at h
  have hfile : ∀ (c : Context F) n b, (fresh args.record c n b).file.isSome = args.record := by
    intro c n b
    cases hr : args.record <;> rfl
  cases h with
  | failed e s hb => cases hg
  | crash s hb => cases hg
  | endless s hb => cases hg
  | noThreads v s name b hb hn hi hz => cases hg
  | unknown v s name hb hn hi =>
    cases hg
    refine ⟨⟨v, s, hb⟩, .unknown name hn hi, fun w hw => (by cases hw), fun name' b hn' hi' => ?_⟩
    rw [hn] at hn'
    cases hn'
    exact absurd hi' (hi b)
  | all v s tests hb hn hts =>
    cases hg
    refine ⟨⟨v, s, hb⟩, ?_, fun w hw => ?_, fun name' b hn' hi' => by rw [hn] at hn'; cases hn'⟩
    · have : (tests.map fun p => fresh args.record s.ctx p.1 p.2).length = (tests.map Prod.fst).length := by simp
      rw [this]
      refine .all _ hn hts.distinct fun n => ?_
      rw [List.mem_map]
      constructor
      · rintro ⟨⟨n', b⟩, h1, rfl⟩
        obtain ⟨before, after, rfl, -⟩ := (hts.last n' b).1 h1
        exact ⟨b, by simp⟩
      · rintro ⟨b, h1⟩
        cases hl : lastTest n items with
        | none => exact absurd h1 ((lastTest_none _ _).1 hl b)
        | some b' => exact ⟨(n, b'), (hts.last n b').2 ((lastTest_iff _ _ _).1 hl), rfl⟩
    · rw [List.mem_map] at hw
      obtain ⟨p, -, rfl⟩ := hw
      exact hfile _ _ _
  | named v s n name test before after hb hn hi ha hz hnum =>
    cases hg
    refine ⟨⟨v, s, hb⟩, ?_, fun w hw => ?_, fun _ _ _ _ => hz⟩
    · rw [List.length_replicate]
      exact .named name test hn (by rw [hi]; simp)
    · rw [List.eq_of_mem_replicate hw]
      exact hfile _ _ _

theorem threadCount_unique {args : TestArgs} {items : List (Item F)} {a b : Nat} (ha : ThreadCount args items a) (hb : ThreadCount args items b) : a = b := by
  cases ha with
  | named name t hn hi =>
    cases hb with
    | named => rfl
    | unknown name' hn' hi' => rw [hn] at hn'; cases hn'; exact absurd hi (hi' t)
    | all names hn' => rw [hn] at hn'; cases hn'
  | unknown name hn hi =>
    cases hb with
    | named name' t hn' hi' => rw [hn] at hn'; cases hn'; exact absurd hi' (hi t)
    | unknown => rfl
    | all names hn' => rw [hn] at hn'; cases hn'
  | all names hn hd hm =>
    cases hb with
    | named name' t hn' hi' => rw [hn] at hn'; cases hn'
    | unknown name' hn' => rw [hn] at hn'; cases hn'
    | all names' hn' hd' hm' => exact ((List.perm_ext_iff_of_nodup hd hd').2 fun n => (hm n).trans (hm' n).symm).length_eq

/-- What `am test` comes to, by the sources. -/
inductive Comes (net : Net) (args : TestArgs) (root : Str) (files : Node) : Started F → Prop
  | unreadable (path : List Str) : Below root files path none → Comes net args root files .panicked
  | rejected (text : Str) (m : Str) : Sources root files text → parse (F := F) text = .err m → Comes net args root files .ended
  | loops (text : Str) : Sources root files text → Endless F (segment text) → Comes net args root files .endless
  | starts (text : Str) (items : List (Item F)) (w : Started F) (s : St F) : Sources root files text → Accepted text items →
      TestStarts net args items w s → Comes net args root files w

theorem amTest_comes (order : List (Str × List (Expr F)) → List (Str × List (Expr F))) (ho : ∀ l, (order l).Perm l) (net : Net) (args : TestArgs)
    (root : Str) (files : Node) (hd : Distinct files) : Comes net args root files (amTest order net args root files).1 := by
  by_cases hr : ∃ path, Below root files path none
  · obtain ⟨path, hr⟩ := hr
    unfold amTest
    rw [c57_unreadable root files path hr]
    exact .unreadable path hr
  · obtain ⟨text, h1, h2⟩ := sources_read hd fun path h => hr ⟨path, h⟩
    unfold amTest
    rw [h2]
    dsimp only
    cases hp : parse (F := F) text with
    | ok src =>
      obtain ⟨closed, hL⟩ := c02_lex_lossless text
      obtain ⟨items, h3, -⟩ := (c79_accepts text src).1 hp
      have ha : Accepted text items := ⟨closed, _, hL, h3⟩
      exact .starts text items _ _ h1 ha ((c71_accepted net args text items ha _ _).1 ⟨order, ho, rfl⟩)
    | err m =>
      rw [c71_rejected order net args text m hp]
      exact .rejected text m h1 hp
    | panic =>
      have := parse_tells (F := F) text
      rw [hp] at this
      exact this.elim
    | hang =>
      have : startTest order net args text = (.endless, ⟨Context.new, [], []⟩) := by
        unfold startTest setup
        rw [hp]
        rfl
      rw [this]
      exact .loops text h1 ((c06_exact_partial (F := F) text).1 hp)

/-- The main thread fails because it crashes before the threads, or because a file cannot be created. -/
theorem mainFails_iff {net : Net} {args : TestArgs} {root : Str} {files : Node} {pod : Str} {creatable : Str → Bool} {w : Started F}
    (h : Comes net args root files w) :
    MainFails F net args root files pod creatable ↔
      w = .panicked ∨ ∃ cfg ws, w = .threads cfg ws ∧ args.record = true ∧ ∃ i, i < ws.length ∧ creatable (recordFile pod i) = false := by
  cases h with
  | unreadable path hp => exact ⟨fun _ => .inl rfl, fun _ => .unreadable path hp⟩
  | rejected text m hs hp =>
    constructor
    · intro hm
      exfalso
      have key : ∀ items : List (Item F), Sources root files text → Accepted text items → False := fun items _ ha => by
        rw [accepted_items ha] at hp
        cases hp
      cases hm with
      | unreadable path hb => exact hs.1 path hb
      | crash t items s hs' ha => cases sources_unique hs hs'; exact key items hs ha
      | noThreads t items v s name b hs' ha => cases sources_unique hs hs'; exact key items hs ha
      | record t items v s n i hs' ha => cases sources_unique hs hs'; exact key items hs ha
    · rintro (h | ⟨_, _, h, _⟩) <;> cases h
  | loops text hs he =>
    constructor
    · intro hm
      exfalso
      cases hm with
      | unreadable path hb => exact hs.1 path hb
      | crash t items s hs' ha => cases sources_unique hs hs'; exact accepted_not_endless ha he
      | noThreads t items v s name b hs' ha => cases sources_unique hs hs'; exact accepted_not_endless ha he
      | record t items v s n i hs' ha => cases sources_unique hs hs'; exact accepted_not_endless ha he
    · rintro (h | ⟨_, _, h, _⟩) <;> cases h
  | starts text items _ s hs ha ht =>
    have back : ∀ cfg ws, w = .threads cfg ws → (∃ i, args.record = true ∧ i < ws.length ∧ creatable (recordFile pod i) = false) →
        MainFails F net args root files pod creatable := by
      rintro cfg ws rfl ⟨i, h1, h2, h3⟩
      obtain ⟨⟨v, s1, hb⟩, hc, -, -⟩ := starts_threads ht
      exact .record text items v s1 _ i hs ha hb h1 hc h2 h3
    constructor
    · intro hm
      cases hm with
      | unreadable path hb => exact absurd hb (hs.1 path)
      | crash t items' s' hs' ha' hb =>
        cases sources_unique hs hs'
        cases accepted_unique ha ha'
        cases ht with
        | failed e s hb' => cases (runs_unique hb hb').1
        | crash s hb' => exact .inl rfl
        | endless s hb' => cases (runs_unique hb hb').1
        | noThreads v s name b hb' => cases (runs_unique hb hb').1
        | unknown v s name hb' => cases (runs_unique hb hb').1
        | all v s tests hb' => cases (runs_unique hb hb').1
        | named v s n name test before after hb' => cases (runs_unique hb hb').1
      | noThreads t items' v s' name b hs' ha' hb hn hi hz =>
        cases sources_unique hs hs'
        cases accepted_unique ha ha'
        cases ht with
        | failed e s hb' => cases (runs_unique hb hb').1
        | crash s hb' => exact .inl rfl
        | endless s hb' => cases (runs_unique hb hb').1
        | noThreads v s name b hb' => exact .inl rfl
        | unknown v s name' hb' hn' hi' => rw [hn] at hn'; cases hn'; exact absurd hi (hi' b)
        | all v s tests hb' hn' => rw [hn] at hn'; cases hn'
        | named v s n name test before after hb' hn' hi' ha hz' => exact absurd hz hz'
      | record t items' v s' n i hs' ha' hb hr hc hi hbad =>
        cases sources_unique hs hs'
        cases accepted_unique ha ha'
        have fin : ∀ cfg ws, w = .threads cfg ws → w = .panicked ∨ ∃ cfg ws, w = .threads cfg ws ∧ args.record = true ∧ ∃ i, i < ws.length ∧
            creatable (recordFile pod i) = false := by
          rintro cfg ws rfl
          have := (starts_threads ht).2.1
          rw [threadCount_unique hc this] at hi
          exact .inr ⟨cfg, ws, rfl, hr, i, hi, hbad⟩
        cases ht with
        | failed e s hb' => cases (runs_unique hb hb').1
        | crash s hb' => exact .inl rfl
        | endless s hb' => cases (runs_unique hb hb').1
        | noThreads v s name b hb' => exact .inl rfl
        | unknown => exact fin _ _ rfl
        | all => exact fin _ _ rfl
        | named => exact fin _ _ rfl
    · rintro (rfl | ⟨cfg, ws, rfl, h1, i, h2, h3⟩)
      · generalize hg : (Started.panicked : Started F) = g at ht
        cases ht with
        | failed e s hb => cases hg
        | crash s hb => exact .crash text items _ hs ha hb
        | endless s hb => cases hg
        | noThreads v s name b hb hn hi hz => exact .noThreads text items v _ name b hs ha hb hn hi hz
        | unknown => cases hg
        | all => cases hg
        | named => cases hg
      · exact back cfg ws rfl ⟨i, h1, h2, h3⟩

theorem mainLoops_iff {net : Net} {args : TestArgs} {root : Str} {files : Node} {w : Started F} (h : Comes net args root files w) :
    MainLoops F net root files ↔ w = .endless := by
  cases h with
  | unreadable path hp =>
    refine ⟨fun hm => ?_, fun h => by cases h⟩
    cases hm with
    | parser t hs => exact absurd hp (hs.1 path)
    | expression t items s hs => exact absurd hp (hs.1 path)
  | rejected text m hs hp =>
    refine ⟨fun hm => ?_, fun h => by cases h⟩
    cases hm with
    | parser t hs' he =>
      cases sources_unique hs hs'
      exact absurd he ((c79_rejects text).1 ⟨m, hp⟩).2
    | expression t items s hs' ha =>
      cases sources_unique hs hs'
      rw [accepted_items ha] at hp
      cases hp
  | loops text hs he => exact ⟨fun _ => rfl, fun _ => .parser text hs he⟩
  | starts text items _ s hs ha ht =>
    constructor
    · intro hm
      cases hm with
      | parser t hs' he =>
        cases sources_unique hs hs'
        exact absurd he (accepted_not_endless ha)
      | expression t items' s hs' ha' hb =>
        cases sources_unique hs hs'
        cases accepted_unique ha ha'
        cases ht with
        | failed e s hb' => cases (runs_unique hb hb').1
        | crash s hb' => cases (runs_unique hb hb').1
        | endless s hb' => rfl
        | noThreads v s name b hb' => cases (runs_unique hb hb').1
        | unknown v s name hb' => cases (runs_unique hb hb').1
        | all v s tests hb' => cases (runs_unique hb hb').1
        | named v s n name test before after hb' => cases (runs_unique hb hb').1
    · rintro rfl
      generalize hg : (Started.endless : Started F) = g at ht
      cases ht with
      | failed e s hb => cases hg
      | crash s hb => cases hg
      | endless s hb => exact .expression text items _ hs ha hb
      | noThreads => cases hg
      | unknown => cases hg
      | all => cases hg
      | named => cases hg

/-- All threads whose files can be created, started one after the other. -/
theorem spawns (cfg : Config) (pod : Str) (creatable : Str → Bool) : ∀ (n : Nat) (l : Launch F), l.crashed = false → n < l.waiting.length →
    (∀ w ∈ l.waiting, w.file.isSome = true) → creatable (recordFile pod (l.run.workers.length + n)) = false →
    (∀ i, i < n → creatable (recordFile pod (l.run.workers.length + i)) = true) →
    ∃ l', l.steps cfg pod creatable (List.replicate (n + 1) .spawn) = some l' ∧ l'.crashed = true := by
  intro n
  induction n with
  | zero =>
    intro l hc hn hf hb _
    cases hw : l.waiting with
    | nil => rw [hw] at hn; cases hn
    | cons w rest =>
      have := hf w (by rw [hw]; exact List.mem_cons_self)
      rw [Option.isSome_iff_exists] at this
      obtain ⟨header, hh⟩ := this
      refine ⟨{ l with crashed := true }, ?_, rfl⟩
      rw [Nat.add_zero] at hb
      simp [List.replicate, Launch.steps, Launch.step, hc, Launch.spawn, hw, hh, hb]
  | succ n ih =>
    intro l hc hn hf hb hg
    cases hw : l.waiting with
    | nil => rw [hw] at hn; cases hn
    | cons w rest =>
      have := hf w (by rw [hw]; exact List.mem_cons_self)
      rw [Option.isSome_iff_exists] at this
      obtain ⟨header, hh⟩ := this
      have h0 := hg 0 (Nat.succ_pos n)
      rw [Nat.add_zero] at h0
      obtain ⟨l', h1, h2⟩ := ih ⟨rest, { l.run with workers := l.run.workers ++ [w] }, amInsert (recordFile pod l.run.workers.length) header l.dir, false⟩ rfl
        (by rw [hw, List.length_cons] at hn; simpa using hn) (fun w' hw' => hf w' (by rw [hw]; exact List.mem_cons_of_mem _ hw'))
        (by simp only [List.length_append, List.length_cons, List.length_nil]; rw [show l.run.workers.length + (0 + 1) + n = l.run.workers.length + (n + 1) by omega]; exact hb)
        (fun i hi => by
          simp only [List.length_append, List.length_cons, List.length_nil]
          rw [show l.run.workers.length + (0 + 1) + i = l.run.workers.length + (i + 1) by omega]
          exact hg _ (by omega))
      refine ⟨l', ?_, h2⟩
      rw [List.replicate_succ, Launch.steps]
      simp only [Launch.step, hc, Launch.spawn, hw, hh, h0, if_true, Bool.false_eq_true, if_false, Option.bind_some]
      exact h1

theorem first_bad (p : Nat → Bool) : ∀ i, p i = false → ∃ n, n ≤ i ∧ p n = false ∧ ∀ j, j < n → p j = true := by
  intro i
  induction i using Nat.strongRecOn with
  | ind i ih =>
    intro h
    by_cases hex : ∃ j, j < i ∧ p j = false
    · obtain ⟨j, hj, hp⟩ := hex
      obtain ⟨n, h1, h2⟩ := ih j hj hp
      exact ⟨n, by omega, h2⟩
    · exact ⟨i, Nat.le_refl i, h, fun j hj => by
        cases hp : p j with
        | true => rfl
        | false => exact absurd ⟨j, hj, hp⟩ hex⟩

/-- C80, the part that holds: whatever the scheduler does, when `am test` ends, it ends with status 0 or 101; with 101 exactly if one of the
listed failures of the main thread is there; and it never gets to its threads exactly if the parser or an expression outside the tests loops.
Not covered (and false, see `c80_false_assert` and the following): failures inside the tests, in the sources or in the choice of the test. -/
theorem c80_exact_partial (order : List (Str × List (Expr F)) → List (Str × List (Expr F))) (ho : ∀ l, (order l).Perm l) (net : Net) (args : TestArgs)
    (root : Str) (files : Node) (hd : Distinct files) (pod : Str) (creatable : Str → Bool) (dir : List (Str × List UInt8)) (sched : List LaunchStep)
    (e : Ending) (h : testEnding order net args root files pod creatable dir sched = some e) :
    (e = .status 0 ∨ e = .status 101 ∨ e = .never) ∧ (e = .status 101 ↔ MainFails F net args root files pod creatable) ∧
    (e = .never ↔ MainLoops F net root files) := by
  have hc := amTest_comes order ho net args root files hd
  rw [mainFails_iff hc, mainLoops_iff hc]
  unfold testEnding at h
  cases hw : (amTest order net args root files).1 with
  | ended =>
    rw [hw] at h
    dsimp only at h
    split at h
    · cases h; simp
    · cases h
  | panicked =>
    rw [hw] at h
    dsimp only at h
    split at h
    · cases h; simp
    · cases h
  | endless =>
    rw [hw] at h
    dsimp only at h
    split at h
    · cases h; simp
    · cases h
  | threads cfg ws =>
    rw [hw] at h hc
    dsimp only at h
    have hfiles : ∀ w ∈ ws, w.file.isSome = args.record := by
      match hc with
      | .starts _ _ _ _ _ _ ht => exact (starts_threads ht).2.2.1
    cases hl : (Launch.init ws dir).steps cfg pod creatable sched with
    | none => rw [hl] at h; cases h
    | some l =>
      rw [hl] at h
      dsimp only at h
      have hst := starting_steps sched (starting_init pod creatable ws dir) hl
      by_cases hcr : l.crashed = true
      · rw [if_pos hcr] at h
        cases h
        obtain ⟨w, a, b, c⟩ := hst.crash hcr
        rw [hfiles w (List.mem_of_getElem? a)] at b
        rw [List.getElem?_eq_some_iff] at a
        refine ⟨.inr (.inl rfl), ⟨fun _ => .inr ⟨cfg, ws, rfl, b, _, a.1, c⟩, fun _ => rfl⟩, by simp⟩
      · rw [if_neg hcr] at h
        by_cases hfin : (l.waiting.isEmpty && l.run.finished) = true
        · rw [if_pos hfin] at h
          cases h
          rw [Bool.and_eq_true] at hfin
          refine ⟨.inl rfl, ⟨fun h => (nomatch h), ?_⟩, by simp⟩
          rintro (h | ⟨_, _, h, hr, i, hi, hbad⟩)
          · cases h
          · cases h
            exfalso
            obtain ⟨n, h1, h2, h3⟩ := first_bad (fun i => creatable (recordFile pod i)) i hbad
            have := (c76_exact_partial (cfg := cfg) (dir := dir) ⟨h2, h3⟩ (by omega : n < ws.length) fun w hw => by rw [hfiles w hw, hr]).1 sched l hl
            exact this.2.1 (by simpa using hfin.1)
        · rw [if_neg hfin] at h
          cases h

/-- C80: each of the listed failures really makes the process end with status 101. -/
theorem c80_fails_partial (order : List (Str × List (Expr F)) → List (Str × List (Expr F))) (ho : ∀ l, (order l).Perm l) (net : Net) (args : TestArgs)
    (root : Str) (files : Node) (hd : Distinct files) (pod : Str) (creatable : Str → Bool) (dir : List (Str × List UInt8)) :
    (∃ sched, testEnding order net args root files pod creatable dir sched = some (.status 101)) ↔ MainFails F net args root files pod creatable := by
  constructor
  · rintro ⟨sched, h⟩
    exact (c80_exact_partial order ho net args root files hd pod creatable dir sched _ h).2.1.1 rfl
  · intro hm
    have hc := amTest_comes order ho net args root files hd
    rw [mainFails_iff hc] at hm
    unfold testEnding
    rcases hm with hw | ⟨cfg, ws, hw, hr, i, hi, hbad⟩
    · rw [hw]
      exact ⟨[], rfl⟩
    · rw [hw] at hc ⊢
      dsimp only
      have hfiles : ∀ w ∈ ws, w.file.isSome = args.record := by
        match hc with
        | .starts _ _ _ _ _ _ ht => exact (starts_threads ht).2.2.1
      obtain ⟨n, h1, h2, h3⟩ := first_bad (fun i => creatable (recordFile pod i)) i hbad
      obtain ⟨l, h4, h5⟩ := spawns cfg pod creatable n (Launch.init ws dir) rfl (by simp only [Launch.init]; omega) (fun w hw => (hfiles w hw).trans hr)
        (by simpa [Launch.init, Run.init] using h2) (fun j hj => by simpa [Launch.init, Run.init] using h3 j hj)
      refine ⟨List.replicate (n + 1) .spawn, ?_⟩
      rw [h4]
      simp only [h5, if_true]

/-- C80: `am eval` ends with status 101 exactly for accepted texts whose expressions crash, never exactly for endless texts and accepted texts
whose expressions loop, and with status 0 in all other cases, failures included. -/
theorem c80_eval_partial (net : Net) (text : Str) :
    (evalEnding F net text = .status 101 ↔
      ∃ (items : List (Item F)) (s : St F), Accepted text items ∧ RunsBlock net .null (exprsOf items) (begins items) .panic s) ∧
    (evalEnding F net text = .never ↔ Endless F (segment text) ∨
      ∃ (items : List (Item F)) (s : St F), Accepted text items ∧ RunsBlock net .null (exprsOf items) (begins items) .hang s) ∧
    (evalEnding F net text = .status 0 ∨ evalEnding F net text = .status 101 ∨ evalEnding F net text = .never) := by
  rcases he : evalText (F := F) net text ⟨Context.new, [], []⟩ with ⟨out, s'⟩
  have hx : evalEnding F net text = out.ending := by rw [evalEnding, he]
  have hs : Proper (.map (⟨Context.new, [], []⟩ : St F).ctx.inner) := .map (by simp [Context.new]) (by simp [Context.new])
  rw [hx]
  rcases (c64_every net text _ _ _ hs).1 he with ⟨items, r, s1, t, ha, hb, hsh, -⟩ | ⟨m, hp, hn, rfl, -⟩ | ⟨h1, rfl, -⟩
  · have hb : RunsBlock net .null (exprsOf items) (begins items) r s1 := hb
    have key : ∀ r', (∃ (items' : List (Item F)) (s : St F), Accepted text items' ∧ RunsBlock net .null (exprsOf items') (begins items') r' s) → r' = r := by
      rintro r' ⟨items', s, ha', hb'⟩
      cases accepted_unique ha ha'
      exact (runs_unique hb' hb).1
    have hne := accepted_not_endless ha
    cases hsh with
    | value v => exact ⟨⟨fun h => (nomatch h), fun h => (nomatch key _ h)⟩, ⟨fun h => (nomatch h), fun h => h.elim (fun h => absurd h hne) fun h => (nomatch key _ h)⟩, .inl rfl⟩
    | error e => exact ⟨⟨fun h => (nomatch h), fun h => (nomatch key _ h)⟩, ⟨fun h => (nomatch h), fun h => h.elim (fun h => absurd h hne) fun h => (nomatch key _ h)⟩, .inl rfl⟩
    | crash => exact ⟨⟨fun _ => ⟨items, s1, ha, hb⟩, fun _ => rfl⟩, ⟨fun h => (nomatch h), fun h => h.elim (fun h => absurd h hne) fun h => (nomatch key _ h)⟩, .inr (.inl rfl)⟩
    | endless => exact ⟨⟨fun h => (nomatch h), fun h => (nomatch key _ h)⟩, ⟨fun _ => .inr ⟨items, s1, ha, hb⟩, fun _ => rfl⟩, .inr (.inr rfl)⟩
  · have hne := ((c79_rejects (F := F) text).1 ⟨m, hp⟩).2
    exact ⟨⟨fun h => (nomatch h), fun ⟨i, _, ha, _⟩ => absurd ha (hn i)⟩, ⟨fun h => (nomatch h), fun h => h.elim (fun h => absurd h hne) fun ⟨i, _, ha, _⟩ => absurd ha (hn i)⟩,
      .inl rfl⟩
  · exact ⟨⟨fun h => (nomatch h), fun ⟨i, _, ha, _⟩ => absurd h1 (accepted_not_endless ha)⟩, ⟨fun _ => .inl h1, fun _ => rfl⟩, .inr (.inr rfl)⟩

/-- The steps of a single thread that starts, makes `n` moves and ends. -/
def oneThread (net : Net) (n : Nat) : List LaunchStep := [.spawn] ++ List.replicate n (.step (.work 0 net)) ++ [.step .drop, .step .collect]

/-- A source file with a test whose only request has an assert that cannot hold. -/
def failingTest : Node := .file (some c!"request ping `GET http://localhost/` [1 == 2] test t { ping() }")

/-- C80 is false: the only assert of the only request of the only test fails, the record printed says so, and the process ends with status 0. -/
theorem c80_false_assert (k : Clocks) (pod : Str) : ∃ cfg ws, ∃ (l : Launch F) (rec : Record),
    (amTest (F := F) id (refusing k) ⟨none, 1, none, 1, false, false⟩ c!"a.fan" failingTest).1 = .threads cfg ws ∧
    Launches cfg pod (fun _ => true) ws [] (oneThread (refusing k) 5) l ∧ (some 0, rec.text ++ c!"\n") ∈ l.run.out ∧
    (∃ a ∈ rec.asserts, a.result = false) ∧
    testEnding (F := F) id (refusing k) ⟨none, 1, none, 1, false, false⟩ c!"a.fan" failingTest pod (fun _ => true) [] (oneThread (refusing k) 5) =
      some (.status 0) := by
  refine ⟨_, _, _, { pingRecord k with asserts := [⟨c!"1 == 2", c!"1", c!"==", c!"2", false⟩] }, rfl, rfl, ?_, ⟨_, List.mem_cons_self, rfl⟩, ?_⟩
  · exact List.mem_cons_of_mem _ List.mem_cons_self
  · rfl

/-- C80 is false: the evaluation of the only test fails with an error (here) or crashes its thread (next), and the process ends with status 0. -/
theorem c80_false_test (net : Net) (pod : Str) :
    (runBlock (F := F) net [.ident c!"x"] ⟨Context.new, [], []⟩).1 = .err c!"ident:x not found" ∧
    testEnding (F := F) id net ⟨none, 1, none, 1, false, false⟩ c!"a.fan" (.file (some c!"test t { x }")) pod (fun _ => true) [] (oneThread net 4) =
      some (.status 0) := ⟨rfl, by rfl⟩

theorem c80_false_panic (net : Net) (pod : Str) :
    (runBlock (F := F) net [.binary ⟨.Div, c!"/"⟩ (.int 1) (.int 0)] ⟨Context.new, [], []⟩).1 = .panic ∧
    testEnding (F := F) id net ⟨none, 1, none, 1, false, false⟩ c!"a.fan" (.file (some c!"test t { 1 / 0 }")) pod (fun _ => true) [] (oneThread net 2) =
      some (.status 0) := ⟨rfl, rfl⟩

/-- C80 is false: the sources do not parse, and the process ends with status 0. -/
theorem c80_false_source (net : Net) (pod : Str) : (∃ m, parse (F := F) c!"let" = .err m) ∧
    testEnding (F := F) id net ⟨none, 1, none, 1, false, false⟩ c!"a.fan" (.file (some c!"let")) pod (fun _ => true) [] [] = some (.status 0) ∧
    evalEnding F net c!"let" = .status 0 := ⟨⟨_, rfl⟩, rfl, rfl⟩

/-- C80 is false: the test asked for does not exist, and the process ends with status 0. -/
theorem c80_false_name (net : Net) (pod : Str) :
    testEnding (F := F) id net ⟨some c!"u", 1, none, 1, false, false⟩ c!"a.fan" (.file (some c!"test t { 1 }")) pod (fun _ => true) []
      [.step .drop, .step .collect] = some (.status 0) := rfl

/-- Concrete cases: a division by zero outside the tests; a file that cannot be read; no thread for a test that is there; a record file that
cannot be created. -/
example (net : Net) (pod : Str) :
    testEnding (F := F) id net ⟨none, 1, none, 1, false, false⟩ c!"a.fan" (.file (some c!"1 / 0 test t { 1 }")) pod (fun _ => true) [] [] = some (.status 101) ∧
    testEnding (F := F) id net ⟨none, 1, none, 1, false, false⟩ c!"a.fan" (.file none) pod (fun _ => true) [] [] = some (.status 101) ∧
    testEnding (F := F) id net ⟨some c!"t", 0, none, 1, false, false⟩ c!"a.fan" (.file (some c!"test t { 1 }")) pod (fun _ => true) [] [] = some (.status 101) ∧
    testEnding (F := F) id net ⟨some c!"t", 1, none, 1, true, false⟩ c!"a.fan" (.file (some c!"test t { 1 }")) pod (fun _ => false) [] [.spawn] =
      some (.status 101) := ⟨rfl, rfl, rfl, rfl⟩

end Am
