import Verif.Spec.Agree
import Verif.Props.Launching
import Verif.Props.Reports
/-! # C81: the reports of a run agree -/
set_option linter.unusedSimpArgs false
set_option linter.unusedSectionVars false
namespace Am
open Spec
variable {F : Type} [Rt F]

theorem timesOf_perm {a b : List (Str × Nat)} (h : a.Perm b) (k : Str) : (timesOf k a).Perm (timesOf k b) := (h.filter _).map _

theorem isStat_perm {a b : List Nat} (h : a.Perm b) {s : Stat} (hs : IsStat a s) : IsStat b s := by
  unfold IsStat at hs ⊢
  rw [← h.length_eq, ← h.sum_nat]
  obtain ⟨h1, h2, ⟨h3, h4⟩, ⟨h5, h6⟩, h7⟩ := hs
  exact ⟨h1, h2, ⟨h.mem_iff.1 h3, fun t ht => h4 t (h.mem_iff.2 ht)⟩, ⟨h.mem_iff.1 h5, fun t ht => h6 t (h.mem_iff.2 ht)⟩, h7⟩

theorem statLine_perm {a b : List Nat} (h : a.Perm b) {name line : Str} (hs : StatLine name a line) : StatLine name b line := by
  unfold StatLine at hs ⊢
  obtain ⟨s, v1, v2, v3, v4, v5, h1, h2⟩ := hs
  exact ⟨s, v1, v2, v3, v4, v5, isStat_perm h h1, h2⟩

theorem timesOf_samples (hists : Nat → List (Str × List Record)) (t : Nat) (k : Str) :
    timesOf k ((List.range t).flatMap fun i => samples (hists i)) ≠ [] ↔ ∃ i, i < t ∧ ∃ p ∈ hists i, ∃ r ∈ p.2, r.name = k := by
  unfold timesOf samples
  rw [ne_eq, List.map_eq_nil_iff, List.filter_eq_nil_iff]
  constructor
  · intro h
    apply Classical.byContradiction
    intro hn
    apply h
    intro q hq he
    simp only [List.mem_flatMap, List.mem_range, List.mem_map] at hq
    obtain ⟨i, hi, p, hp, r, hr, rfl⟩ := hq
    exact hn ⟨i, hi, p, hp, r, hr, by simpa using he⟩
  · rintro ⟨i, hi, p, hp, r, hr, hk⟩ h
    exact h (r.name, r.time.total / 1000000) (by simp only [List.mem_flatMap, List.mem_range, List.mem_map]; exact ⟨i, hi, p, hp, r, hr, rfl⟩) (by simpa using hk)

/-- C81: when a run of a named test with `--record` and `--stat` has ended, under every schedule, the record files, the printed reports and the
printed statistics agree. -/
theorem c81_agree (ho : ∀ l : List (Str × Str), (Rt.order F l).Perm l) {base : Context F} {name : Str} {test : List (Expr F)} {t n : Nat} {pod : Str}
    {creatable : Str → Bool} {dir : List (Str × List UInt8)} {sched : List LaunchStep} {l : Launch F}
    (h : Launches ⟨true, n / t, true⟩ pod creatable (List.replicate t (fresh true base name test)) dir sched l) (hw : l.waiting = [])
    (hf : l.run.finished = true) : ReportsAgree pod name test base.clone t l.dir l.run.out := by
  have hrun := c76_named h hw
  have hfiles := (c76_files_partial h).1
  simp only [Run.finished, Bool.and_eq_true, beq_iff_eq] at hf
  obtain ⟨⟨hdone, -⟩, hc⟩ := hf
  have hcol := collector_run (cfg := ⟨true, n / t, true⟩) rfl (r := Run.init (List.replicate t (fresh true base name test))) ⟨fun _ => rfl, fun hd => by cases hd⟩ hrun
  obtain ⟨h1, h2, h3⟩ := hcol.ended hc rfl
  obtain ⟨_, log, received, g0, g1, g2, g⟩ := named_worker hrun
  rw [h1, List.append_nil] at g1
  have key : ∀ i, ∃ hist : List (Str × List Record), i < t → sentBy i log = hist.map Prod.snd ∧ ∃ nets c tail, Iterations test base.clone nets hist c ∧
      amGet (recordFile pod i) l.dir = some (iterationFile name i hist) ∧ outOf (some i) l.run.out = chunks hist ++ tail ∧ Farewell test c tail := by
    intro i
    by_cases hi : i < t
    · obtain ⟨w, hw, _, _, good, hist, c, hit, ha⟩ := g i hi
      have hpc : w.pc = .done := by
        have := List.all_eq_true.1 hdone w (List.mem_of_getElem? hw)
        simpa using this
      unfold NamedAt at ha
      rw [hpc] at ha
      obtain ⟨a1, a2, a3, a4⟩ := ha
      have a2 : w.file = some (iterationFile name i hist) := by simpa [fileFor] using a2
      refine ⟨hist, fun _ => ⟨by simpa [sentFor] using a3, good, c, ?_⟩⟩
      rcases a4 with ⟨_, _, b1, _⟩ | ⟨net, s, _, _, ⟨e, b3, b4⟩ | ⟨b3, b4⟩⟩
      · exact ⟨[], hit, hfiles i w _ hw a2, by rw [List.append_nil]; exact b1, .complete⟩
      · exact ⟨_, hit, hfiles i w _ hw a2, b4, .failed net e s b3⟩
      · exact ⟨_, hit, hfiles i w _ hw a2, b4, .crashed net s b3⟩
    · exact ⟨[], fun h => absurd h hi⟩
  obtain ⟨hists, hh⟩ := Classical.axiomOfChoice key
  have hp : ((log.map Prod.snd).flatMap fun rs => rs.map fun r => (r.name, r.time.total / 1000000)).Perm ((List.range t).flatMap fun i => samples (hists i)) := by
    refine ((log_perm t log g0).flatMap_right _).trans ?_
    rw [List.flatMap_assoc]
    have e : ∀ L : List Nat, (∀ i ∈ L, i < t) → L.flatMap (fun i => (sentBy i log).flatMap fun rs => rs.map fun r => (r.name, r.time.total / 1000000)) =
        L.flatMap fun i => samples (hists i) := by
      intro L
      induction L with
      | nil => intro _; rfl
      | cons i L ih =>
        intro hL
        rw [List.flatMap_cons, List.flatMap_cons, ih fun j hj => hL j (List.mem_cons_of_mem _ hj), (hh i (hL i List.mem_cons_self)).1]
        congr 1
        simp [samples, List.flatMap_map]
    rw [e _ fun i hi => List.mem_range.1 hi]
  have hs : l.run.stats = addAll ((log.map Prod.snd).flatMap fun rs => rs.map fun r => (r.name, r.time.total / 1000000)) [] := by
    rw [g2, g1, addBatches]
  refine ⟨hists, fun i hi => (hh i hi).2, ?_⟩
  obtain ⟨lines, l1, l2, l3, l4⟩ := c78_stats ho ((log.map Prod.snd).flatMap fun rs => rs.map fun r => (r.name, r.time.total / 1000000))
  refine ⟨lines, by rw [h3, hs, l1], l2, fun k => ?_, fun p hq => statLine_perm (timesOf_perm hp _) (l4 p hq)⟩
  rw [l3, ← timesOf_samples]
  constructor
  · intro hne he
    exact hne (List.Perm.eq_nil (he ▸ timesOf_perm hp k))
  · intro hne he
    exact hne (List.Perm.eq_nil (he ▸ (timesOf_perm hp k).symm))

/-- C81: a reader finds in the record files exactly the records that were reported, labelled with test, thread and iteration. -/
theorem c81_files {pod name : Str} {test : List (Expr F)} {base : Context F} {t : Nat} {dir : List (Str × List UInt8)} {out : List (Option Nat × Str)}
    (h : ReportsAgree pod name test base t dir out) : ∃ hists : Nat → List (Str × List Record), ∀ i, i < t → ∃ bytes tail,
      amGet (recordFile pod i) dir = some bytes ∧ outOf (some i) out = chunks (hists i) ++ tail ∧
      ((∀ b ∈ (hists i).zipIdx.map (fun p => (⟨p.1.2, name, i, p.2⟩ : Batch)), BatchFits b) →
        readFile .counted bytes = some (filesData ((hists i).zipIdx.map fun p => ⟨p.1.2, name, i, p.2⟩))) := by
  obtain ⟨hists, h1, -⟩ := h
  refine ⟨hists, fun i hi => ?_⟩
  obtain ⟨nets, c, tail, -, h2, h3, -⟩ := h1 i hi
  exact ⟨_, tail, h2, h3, fun hf => c50_readable name i (hists i) hf⟩

/-- Concrete case: one thread runs the test once on a network that refuses connections; the program ends. -/
example (k : Clocks) : ∃ l : Launch F, Launches ⟨true, 1 / 1, true⟩ c!"p" (fun _ => true) (List.replicate 1 (fresh true pingContext c!"t" [.call c!"ping" []])) []
      ([.spawn] ++ List.replicate 7 (.step (.work 0 (refusing k))) ++ [.step .drop, .step .collect, .step .collect]) l ∧
    l.waiting = [] ∧ l.run.finished = true := ⟨_, rfl, rfl, rfl⟩

end Am
