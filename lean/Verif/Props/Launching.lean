import Verif.Spec.Launch
import Verif.Props.Running
/-! # C76: starting the threads and their record files -/
set_option linter.unusedSimpArgs false
set_option linter.unusedSectionVars false
namespace Am
open Spec
variable {F : Type} [Rt F]

/-- A step of a thread keeps whether it has a file. -/
theorem step_file {cfg : Config} {cont : Bool} {i : Nat} {net : Net} {w w' : Worker F} {e : Effect} (h : w.step cfg cont i net = some (w', e)) :
    w'.file.isSome = w.file.isSome := by
  obtain ⟨pc, name, test, ctx, number, file⟩ := w
  unfold Worker.step at h
  cases pc with
  | head =>
    dsimp only at h
    split at h
    · split at h <;> (cases h; rfl)
    · cases h; rfl
  | eval =>
    dsimp only at h
    split at h
    · cases h; rfl
    · split at h <;> (cases h; rfl)
    · cases h; rfl
    · cases h; rfl
  | print rs left =>
    cases left with
    | nil => cases h; rfl
    | cons r l => cases h; rfl
  | write rs =>
    dsimp only at h
    split at h <;> (cases h; simp)
  | send rs => cases h; rfl
  | done => cases h
  | stuck => cases h

/-- A step of a thread is the same when further threads are there. -/
theorem step_more {cfg : Config} {r r' : Run F} {i : Nat} {net : Net} (more : List (Worker F)) (h : r.step cfg (.work i net) = some r') :
    { r with workers := r.workers ++ more }.step cfg (.work i net) = some { r' with workers := r'.workers ++ more } ∧
    i < r.workers.length ∧ r'.workers.length = r.workers.length ∧
    (∀ j, j ≠ i → r'.workers[j]? = r.workers[j]?) ∧
    ∀ w', r'.workers[i]? = some w' → ∃ w, r.workers[i]? = some w ∧ w'.file.isSome = w.file.isSome := by
  simp only [Run.step] at h ⊢
  cases hw : r.workers[i]? with
  | none => rw [hw] at h; cases h
  | some w =>
    have hi : i < r.workers.length := by
      rw [List.getElem?_eq_some_iff] at hw
      exact hw.1
    rw [hw] at h
    rw [List.getElem?_append_left hi, hw]
    dsimp only at h ⊢
    cases hs : w.step cfg r.continuous i net with
    | none => rw [hs] at h; cases h
    | some p =>
      obtain ⟨w', e⟩ := p
      rw [hs] at h
      simp only [Option.some.injEq] at h
      subst h
      refine ⟨?_, hi, by simp, fun j hj => ?_, fun w2 h2 => ⟨w, rfl, ?_⟩⟩
      · simp only [Option.some.injEq, Run.mk.injEq, and_true, true_and]
        exact List.set_append_left i _ hi
      · simp only
        rw [List.getElem?_set_ne (Ne.symm hj)]
      · simp only at h2
        rw [List.getElem?_set_self hi] at h2
        cases h2
        exact step_file hs

/-- The invariant of the start. -/
structure Starting (pod : Str) (creatable : Str → Bool) (ws : List (Worker F)) (dir : List (Str × List UInt8)) (l : Launch F) : Prop where
  count : l.run.workers.length + l.waiting.length = ws.length
  kept : ∀ i, l.run.workers.length ≤ i → (l.run.workers ++ l.waiting)[i]? = ws[i]?
  files : ∀ i (hi : i < l.run.workers.length), ∃ w, ws[i]? = some w ∧ (l.run.workers[i]).file.isSome = w.file.isSome ∧
    (w.file.isSome = true → creatable (recordFile pod i) = true)
  own : ∀ i w bytes, l.run.workers[i]? = some w → w.file = some bytes → amGet (recordFile pod i) l.dir = some bytes
  other : ∀ name, (∀ i, i < l.run.workers.length → name ≠ recordFile pod i) → amGet name l.dir = amGet name dir
  crash : l.crashed = true → ∃ w, ws[l.run.workers.length]? = some w ∧ w.file.isSome = true ∧ creatable (recordFile pod l.run.workers.length) = false

theorem starting_init (pod : Str) (creatable : Str → Bool) (ws : List (Worker F)) (dir : List (Str × List UInt8)) :
    Starting pod creatable ws dir (Launch.init ws dir) where
  count := by simp [Launch.init, Run.init]
  kept := fun i _ => by simp [Launch.init, Run.init]
  files := fun i hi => by simp [Launch.init, Run.init] at hi
  own := fun i w bytes h => by simp [Launch.init, Run.init] at h
  other := fun _ _ => rfl
  crash := fun h => by cases h

theorem starting_spawn {pod : Str} {creatable : Str → Bool} {ws : List (Worker F)} {dir : List (Str × List UInt8)} {l l' : Launch F}
    (hl : Starting pod creatable ws dir l) (h : l.spawn pod creatable = some l') : Starting pod creatable ws dir l' := by
  unfold Launch.spawn at h
  cases hw : l.waiting with
  | nil => rw [hw] at h; cases h
  | cons w rest =>
    rw [hw] at h
    dsimp only at h
    have hc := hl.count
    rw [hw, List.length_cons] at hc
    have here : ws[l.run.workers.length]? = some w := by
      rw [← hl.kept _ (Nat.le_refl _), hw]
      simp
    have step : ∀ (d : List (Str × List UInt8)), (w.file.isSome = true → creatable (recordFile pod l.run.workers.length) = true) →
        (∀ bytes, w.file = some bytes → amGet (recordFile pod l.run.workers.length) d = some bytes) →
        (∀ name, name ≠ recordFile pod l.run.workers.length → amGet name d = amGet name l.dir) →
        Starting pod creatable ws dir { l with waiting := rest, run := { l.run with workers := l.run.workers ++ [w] }, dir := d, crashed := false } := by
      intro d h1 h2 h3
      refine ⟨by simp; omega, fun i hi => ?_, fun i hi => ?_, fun i w' bytes hg hb => ?_, fun name hn => ?_, fun h => by cases h⟩
      · simp only [List.length_append, List.length_cons, List.length_nil] at hi
        rw [← hl.kept i (by omega), hw]
        simp
      · simp only [List.length_append, List.length_cons, List.length_nil] at hi
        by_cases he : i < l.run.workers.length
        · simp only [List.getElem_append_left he]
          exact hl.files i he
        · have : i = l.run.workers.length := by omega
          subst this
          exact ⟨w, here, by simp, h1⟩
      · simp only at hg
        by_cases he : i < l.run.workers.length
        · rw [List.getElem?_append_left he] at hg
          have hne : recordFile pod i ≠ recordFile pod l.run.workers.length := fun e => by
            have := c50_distinct_files pod _ _ e
            omega
          show amGet _ d = _
          rw [h3 _ hne]
          exact hl.own i w' bytes hg hb
        · have hlt : i < (l.run.workers ++ [w]).length := by
            rw [List.getElem?_eq_some_iff] at hg
            exact hg.1
          simp at hlt
          have : i = l.run.workers.length := by omega
          subst this
          simp at hg
          subst hg
          exact h2 bytes hb
      · simp only [List.length_append, List.length_cons, List.length_nil] at hn
        show amGet _ d = _
        rw [h3 _ (hn _ (by omega))]
        exact hl.other name fun i hi => hn i (by omega)
    cases hf : w.file with
    | none =>
      rw [hf] at h
      simp only [Option.some.injEq] at h
      subst h
      have := step l.dir (by simp [hf]) (by simp [hf]) (fun _ _ => rfl)
      exact ⟨this.count, this.kept, this.files, this.own, this.other, fun hcr => by
        obtain ⟨w2, a, b, c⟩ := hl.crash hcr
        rw [here] at a
        cases a
        rw [hf] at b
        cases b⟩
    | some header =>
      rw [hf] at h
      dsimp only at h
      split at h
      · rename_i hcr
        simp only [Option.some.injEq] at h
        subst h
        have := step (amInsert (recordFile pod l.run.workers.length) header l.dir) (fun _ => hcr)
          (fun bytes hb => by rw [hf] at hb; cases hb; exact amGet_insert_self _ _ _) (fun name hn => by rw [amGet_insert, if_neg (Ne.symm hn)])
        exact ⟨this.count, this.kept, this.files, this.own, this.other, fun hc' => by
          obtain ⟨w2, a, b, c⟩ := hl.crash hc'
          rw [hcr] at c
          cases c⟩
      · rename_i hcr
        simp only [Option.some.injEq] at h
        subst h
        rw [← hw]
        exact ⟨hl.count, hl.kept, hl.files, hl.own, hl.other, fun _ => ⟨w, here, by simp [hf], by simpa using hcr⟩⟩

theorem starting_move {cfg : Config} {pod : Str} {creatable : Str → Bool} {ws : List (Worker F)} {dir : List (Str × List UInt8)} {l l' : Launch F} {s : RunStep}
    (hl : Starting pod creatable ws dir l) (hc : l.crashed = false) (h : l.move cfg pod s = some l') : Starting pod creatable ws dir l' := by
  have same : ∀ r', r'.workers = l.run.workers → Starting pod creatable ws dir { l with run := r' } := by
    intro r' he
    refine ⟨by simp only [he]; exact hl.count, by simp only [he]; exact hl.kept, ?_, by simp only [he]; exact hl.own, by simp only [he]; exact hl.other,
      fun h' => ?_⟩
    · intro i hi
      simp only [he] at hi ⊢
      exact hl.files i hi
    · rw [hc] at h'; cases h'
  cases s with
  | work i net =>
    simp only [Launch.move] at h
    cases hr : l.run.step cfg (.work i net) with
    | none => rw [hr] at h; cases h
    | some run =>
      rw [hr] at h
      dsimp only at h
      obtain ⟨-, hi, hlen, hoth, hown⟩ := step_more [] hr
      have hlt : i < run.workers.length := by omega
      have hget : run.workers[i]? = some (run.workers[i]'hlt) := List.getElem?_eq_getElem (by omega)
      obtain ⟨w0, hw0, hsome⟩ := hown _ hget
      have hfiles : ∀ j (hj : j < run.workers.length), ∃ w, ws[j]? = some w ∧ (run.workers[j]).file.isSome = w.file.isSome ∧
          (w.file.isSome = true → creatable (recordFile pod j) = true) := by
        intro j hj
        have hj' : j < l.run.workers.length := by omega
        obtain ⟨w, a, b, c⟩ := hl.files j hj'
        refine ⟨w, a, ?_, c⟩
        rw [← b]
        by_cases he : j = i
        · subst he
          rw [hsome]
          rw [List.getElem?_eq_getElem hj'] at hw0
          cases hw0
          rfl
        · have := hoth j he
          rw [List.getElem?_eq_getElem hj, List.getElem?_eq_getElem hj', Option.some.injEq] at this
          rw [this]
      have hkept : ∀ j, run.workers.length ≤ j → (run.workers ++ l.waiting)[j]? = ws[j]? := by
        intro j hj
        rw [← hl.kept j (by omega), List.getElem?_append_right hj, List.getElem?_append_right (by omega), hlen]
      have hcount : run.workers.length + l.waiting.length = ws.length := by have := hl.count; omega
      cases hf : (run.workers[i]'hlt).file with
      | none =>
        have h' : l' = { l with run } := by
          rw [hget] at h
          split at h
          · rename_i heq
            rw [Option.some.injEq] at heq
            rw [heq] at hf
            cases hf
          · cases h; rfl
        subst h'
        refine ⟨hcount, hkept, hfiles, fun j w bytes hg hb => ?_, fun name hn => hl.other name fun j hj => hn j (by simp only [hlen]; exact hj),
          fun h' => by rw [hc] at h'; cases h'⟩
        by_cases he : j = i
        · subst he
          simp only at hg
          rw [hget] at hg
          cases hg
          rw [hf] at hb
          cases hb
        · simp only at hg
          rw [hoth j he] at hg
          exact hl.own j w bytes hg hb
      | some bytes =>
        have h' : l' = { l with run, dir := amInsert (recordFile pod i) bytes l.dir } := by
          rw [hget] at h
          split at h
          · rename_i heq
            rw [Option.some.injEq] at heq
            rw [heq] at hf
            cases hf
            cases h
            rfl
          · rename_i hne
            exact absurd (by rw [← hf]) (hne (run.workers[i]'hlt).pc (run.workers[i]'hlt).name (run.workers[i]'hlt).test
              (run.workers[i]'hlt).ctx (run.workers[i]'hlt).number bytes)
        subst h'
        refine ⟨hcount, hkept, hfiles, fun j w b hg hb => ?_, fun name hn => ?_, fun h' => by rw [hc] at h'; cases h'⟩
        · simp only at hg ⊢
          by_cases he : j = i
          · subst he
            rw [hget] at hg
            cases hg
            rw [hf] at hb
            cases hb
            exact amGet_insert_self _ _ _
          · rw [hoth j he] at hg
            rw [amGet_insert, if_neg fun e => he (c50_distinct_files pod _ _ e).symm]
            exact hl.own j w b hg hb
        · simp only at hn ⊢
          rw [amGet_insert, if_neg (Ne.symm (hn i (by omega)))]
          exact hl.other name fun j hj => hn j (by omega)
  | stop =>
    simp only [Launch.move] at h
    split at h
    · simp only [Run.step, Option.map_some, Option.some.injEq] at h
      subst h
      exact same _ rfl
    · cases h
  | drop =>
    simp only [Launch.move] at h
    split at h
    · simp only [Run.step] at h
      split at h
      · simp only [Option.map_some, Option.some.injEq] at h
        subst h
        exact same _ rfl
      · cases h
    · cases h
  | collect =>
    simp only [Launch.move] at h
    split at h
    · rw [Option.map_eq_some_iff] at h
      obtain ⟨r', hr, rfl⟩ := h
      refine same _ ?_
      simp only [Run.step] at hr
      split at hr
      · cases hr
      · split at hr
        · split at hr
          · cases hr; rfl
          · split at hr
            · cases hr; rfl
            · cases hr
        · cases hr; rfl
    · cases h

theorem starting_steps {cfg : Config} {pod : Str} {creatable : Str → Bool} {ws : List (Worker F)} {dir : List (Str × List UInt8)} :
    ∀ (sched : List LaunchStep) {l l' : Launch F}, Starting pod creatable ws dir l → l.steps cfg pod creatable sched = some l' →
    Starting pod creatable ws dir l' := by
  intro sched
  induction sched with
  | nil => intro l l' hl h; cases h; exact hl
  | cons s sched ih =>
    intro l l' hl h
    rw [Launch.steps, Option.bind_eq_some_iff] at h
    obtain ⟨l1, h1, h2⟩ := h
    refine ih ?_ h2
    cases s with
    | spawn =>
      simp only [Launch.step] at h1
      split at h1
      · cases h1
      · exact starting_spawn hl h1
    | step s =>
      simp only [Launch.step] at h1
      split at h1
      · cases h1
      · rename_i hc
        exact starting_move hl (by simpa using hc) h1

theorem refines_steps {cfg : Config} {pod : Str} {creatable : Str → Bool} : ∀ (sched : List LaunchStep) {l l' : Launch F},
    l.steps cfg pod creatable sched = some l' →
    Run.run cfg { l.run with workers := l.run.workers ++ l.waiting } (moves sched) = some { l'.run with workers := l'.run.workers ++ l'.waiting } := by
  intro sched
  induction sched with
  | nil => intro l l' h; cases h; rfl
  | cons s sched ih =>
    intro l l' h
    rw [Launch.steps, Option.bind_eq_some_iff] at h
    obtain ⟨l1, h1, h2⟩ := h
    have ih := ih h2
    cases s with
    | spawn =>
      simp only [Launch.step] at h1
      split at h1
      · cases h1
      · rw [moves, ← ih]
        unfold Launch.spawn at h1
        cases hw : l.waiting with
        | nil => rw [hw] at h1; cases h1
        | cons w rest =>
          rw [hw] at h1
          dsimp only at h1
          split at h1
          · cases h1; simp
          · split at h1
            · cases h1; simp
            · cases h1; simp [hw]
    | step s =>
      simp only [Launch.step] at h1
      split at h1
      · cases h1
      · rw [moves, Run.run, Option.bind_eq_some_iff]
        refine ⟨{ l1.run with workers := l1.run.workers ++ l1.waiting }, ?_, ih⟩
        cases s with
        | work i net =>
          simp only [Launch.move] at h1
          cases hr : l.run.step cfg (.work i net) with
          | none => rw [hr] at h1; cases h1
          | some run =>
            rw [hr] at h1
            dsimp only at h1
            have := (step_more l.waiting hr).1
            rw [this]
            split at h1 <;> (cases h1; rfl)
        | stop | drop | collect =>
          simp only [Launch.move] at h1
          split at h1
          · rename_i he
            have he : l.waiting = [] := by simpa using he
            rw [Option.map_eq_some_iff] at h1
            obtain ⟨r', hr, rfl⟩ := h1
            simp only [he, List.append_nil]
            exact hr
          · cases h1

/-- C76 (and the start state of C49-C53): when the threads are started one after the other while others already run, the program is at every
moment in a state that a run with all threads there from the beginning reaches with the same steps. -/
theorem c76_refines {cfg : Config} {pod : Str} {creatable : Str → Bool} {ws : List (Worker F)} {dir : List (Str × List UInt8)} {sched : List LaunchStep}
    {l : Launch F} (h : Launches cfg pod creatable ws dir sched l) :
    (Run.init ws).run cfg (moves sched) = some { l.run with workers := l.run.workers ++ l.waiting } := by
  have := refines_steps sched h
  simpa [Launch.init, Run.init] using this

/-- C76: once all threads of a named run are started, the run is one of the runs C49-C52 speak about. -/
theorem c76_named {record stat : Bool} {base : Context F} {name : Str} {test : List (Expr F)} {t n : Nat} {pod : Str} {creatable : Str → Bool}
    {dir : List (Str × List UInt8)} {sched : List LaunchStep} {l : Launch F}
    (h : Launches ⟨true, n / t, stat⟩ pod creatable (List.replicate t (fresh record base name test)) dir sched l) (hw : l.waiting = []) :
    NamedRun record stat base name test t n (moves sched) l.run := by
  have := c76_refines h
  rw [hw, List.append_nil] at this
  exact this

/-- Concrete case: a thread that is started, runs its only iteration and ends, with another file in the directory. -/
example (net : Net) (bytes : List UInt8) : ∃ l : Launch F,
    Launches ⟨true, 1, false⟩ c!"p" (fun _ => true) [Worker.init true Context.new c!"t" []] [(c!"notes", bytes)]
      ([.spawn] ++ List.replicate 6 (.step (.work 0 net)) ++ [.step .drop, .step .collect]) l ∧
    l.run.finished = true ∧ amGet c!"notes" l.dir = some bytes ∧ amGet c!"p000000" l.dir = some (encHeader avroMeta ++ encBlock [] c!"t" 0 0) :=
  ⟨_, rfl, rfl, rfl, rfl⟩

/-- C76, the part that holds: at every moment, the file of a thread already started holds what this thread has written (C50 says what that is),
and every file of the directory that does not bear the name of such a thread's file is as it was before. Not covered (and false, see
`c76_false_kept`): files of the same names. -/
theorem c76_files_partial {cfg : Config} {pod : Str} {creatable : Str → Bool} {ws : List (Worker F)} {dir : List (Str × List UInt8)} {sched : List LaunchStep}
    {l : Launch F} (h : Launches cfg pod creatable ws dir sched l) :
    (∀ i w bytes, l.run.workers[i]? = some w → w.file = some bytes → amGet (recordFile pod i) l.dir = some bytes) ∧
    (∀ name, (∀ i, i < l.run.workers.length → name ≠ recordFile pod i) → amGet name l.dir = amGet name dir) := by
  have hl := starting_steps sched (starting_init pod creatable ws dir) h
  exact ⟨hl.own, hl.other⟩

/-- C76: if the record file of every thread can be created, the main thread does not panic. -/
theorem c76_no_crash {cfg : Config} {pod : Str} {creatable : Str → Bool} {ws : List (Worker F)} {dir : List (Str × List UInt8)} {sched : List LaunchStep}
    {l : Launch F} (h : Launches cfg pod creatable ws dir sched l) (hc : ∀ i, i < ws.length → creatable (recordFile pod i) = true) : l.crashed = false := by
  have hl := starting_steps sched (starting_init pod creatable ws dir) h
  cases hcr : l.crashed with
  | false => rfl
  | true =>
    obtain ⟨w, a, -, c⟩ := hl.crash hcr
    rw [List.getElem?_eq_some_iff] at a
    rw [hc _ a.1] at c
    cases c

/-- C76, exactly what runs when a file cannot be created: let `n` be the first thread whose file cannot be created, and let the run record. Then
the threads from `n` on are never started; a crash happens when exactly the threads before `n` have been started; and it can happen after any
steps of these threads. -/
theorem c76_exact_partial {cfg : Config} {pod : Str} {creatable : Str → Bool} {ws : List (Worker F)} {dir : List (Str × List UInt8)} {n : Nat}
    (hf : FirstBad pod creatable n) (hn : n < ws.length) (hr : ∀ w ∈ ws, w.file.isSome = true) :
    (∀ sched l, Launches cfg pod creatable ws dir sched l → l.run.workers.length ≤ n ∧ l.waiting ≠ [] ∧ (l.crashed = true → l.run.workers.length = n)) ∧
    (∀ sched l, Launches cfg pod creatable ws dir sched l → l.run.workers.length = n → l.crashed = false →
      ∃ l', Launches cfg pod creatable ws dir (sched ++ [.spawn]) l' ∧ l'.crashed = true ∧ l'.run = l.run ∧ l'.dir = l.dir) := by
  constructor
  · intro sched l h
    have hl := starting_steps sched (starting_init pod creatable ws dir) h
    have h1 : l.run.workers.length ≤ n := by
      apply Classical.byContradiction
      intro hgt
      obtain ⟨w, a, b, c⟩ := hl.files n (by omega)
      rw [hf.1] at c
      have := c (hr w (List.mem_of_getElem? a))
      cases this
    have h2 := hl.count
    refine ⟨h1, fun he => ?_, fun hc => ?_⟩
    · rw [he, List.length_nil] at h2
      omega
    · obtain ⟨w, a, b, c⟩ := hl.crash hc
      apply Classical.byContradiction
      intro hne
      rw [hf.2 _ (by omega)] at c
      cases c
  · intro sched l h hlen hc
    have hl := starting_steps sched (starting_init pod creatable ws dir) h
    have app : ∀ (a : List LaunchStep) (l0 : Launch F), l0.steps cfg pod creatable (a ++ [.spawn]) =
        (l0.steps cfg pod creatable a).bind fun l1 => l1.step cfg pod creatable .spawn := by
      intro a
      induction a with
      | nil =>
        intro l0
        simp only [List.nil_append, Launch.steps, Option.bind_some]
        cases l0.step cfg pod creatable .spawn <;> rfl
      | cons s a ih =>
        intro l0
        simp only [List.cons_append, Launch.steps, Option.bind_assoc, ih]
    cases hw : l.waiting with
    | nil =>
      have h2 := hl.count
      rw [hw, List.length_nil] at h2
      omega
    | cons w rest =>
      have hget : ws[n]? = some w := by
        rw [← hl.kept n (by omega), hw, List.getElem?_append_right (by omega), hlen]
        simp
      have hsome := hr w (List.mem_of_getElem? hget)
      rw [Option.isSome_iff_exists] at hsome
      obtain ⟨header, hh⟩ := hsome
      refine ⟨{ l with crashed := true }, ?_, rfl, rfl, rfl⟩
      unfold Launches
      rw [app, show (Launch.init ws dir).steps cfg pod creatable sched = some l from h]
      simp only [Option.bind_some, Launch.step, hc, Launch.spawn, hw, hh, hlen, hf.1]
      rfl

/-- C76 is false: in a run with two threads, of which the second cannot create its record file, the first thread has sent a request and reported
it before the program crashes. -/
theorem c76_false_runs (k : Clocks) : ∃ (ws : List (Worker F)) (sched : List LaunchStep) (l : Launch F) (rec : Record),
    Launches ⟨true, 1, false⟩ [] (fun f => f == c!"000000") ws [] sched l ∧ l.crashed = true ∧ rec.name = c!"ping" ∧
    (some 0, rec.text ++ c!"\n") ∈ l.run.out := by
  let net : Net := ⟨fun _ _ => .refused .tcpConnectFailed k, fun _ => none⟩
  let base : Context F := ⟨[], [(c!"ping", (c!"GET http://localhost/", []))], []⟩
  let w : Worker F := Worker.init true base c!"t" [.call c!"ping" []]
  let rq := (Request.ofStr net.multipart c!"GET http://localhost/").1
  refine ⟨[w, w], [.spawn, .step (.work 0 net), .step (.work 0 net), .step (.work 0 net), .spawn], _, ⟨c!"ping", .default k.sys0, rq, .default, [], c!"tcp connect failed"⟩, rfl, rfl, rfl, ?_⟩
  exact List.mem_cons_of_mem _ List.mem_cons_self

/-- C76 is false: a file of an earlier run is emptied. -/
theorem c76_false_kept (bytes : List UInt8) (hb : bytes ≠ encHeader avroMeta) (base : Context F) (test : List (Expr F)) :
    ∃ l, Launches ⟨true, 1, false⟩ [] (fun _ => true) [Worker.init true base c!"t" test] [(c!"000000", bytes)] [.spawn] l ∧
      amGet c!"000000" l.dir = some (encHeader avroMeta) ∧ amGet c!"000000" l.dir ≠ some bytes := by
  refine ⟨_, rfl, rfl, ?_⟩
  intro h
  exact hb (Option.some.inj h).symm

end Am
