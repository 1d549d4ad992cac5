import Verif.Spec.Timing
import Verif.Proofs.TwoRunsEval
import Verif.Proofs.Response
/-! # C87: clocks change nothing but the times in the records -/
set_option linter.unusedSectionVars false
namespace Am
open Spec
variable {F : Type} [Rt F]

/-- A record without its times. -/
def timeless (r : Record) : Record := { r with time := Time.default 0 }

theorem timeless_iff {r r' : Record} : timeless r = timeless r' ↔ SameRecord r r' := by
  obtain ⟨a, b, c, d, e, f⟩ := r
  obtain ⟨a', b', c', d', e', f'⟩ := r'
  simp [timeless, SameRecord]

theorem each_timeless {l l' : List Record} : l.map timeless = l'.map timeless ↔ Each SameRecord l l' := by
  constructor
  · intro h
    induction l generalizing l' with
    | nil =>
      cases l' with
      | nil => exact .nil
      | cons b m => simp at h
    | cons a l ih =>
      cases l' with
      | nil => simp at h
      | cons b m =>
        simp only [List.map_cons, List.cons.injEq] at h
        exact .cons (timeless_iff.1 h.1) (ih h.2)
  · intro h
    induction h with
    | nil => rfl
    | cons h1 _ ih => rw [List.map_cons, List.map_cons, ih, timeless_iff.2 h1]

theorem agrees_same {s t : St F} : Agrees timeless s t ↔ SameState s t := by
  rw [agrees_iff, each_timeless]
  exact ⟨fun ⟨a, b, c, d, e⟩ => ⟨⟨a, b, c⟩, d, e⟩, fun ⟨⟨a, b, c⟩, d, e⟩ => ⟨a, b, c, d, e⟩⟩

theorem sameAnswers_tied {net net' : Net} (h : SameAnswers net net') : SendsTied timeless net net' := by
  intro sent text
  unfold send
  rw [h.1]
  generalize (Request.ofStr net'.multipart text).1 = rq
  have hx := h.2 sent text
  revert hx
  generalize net.exch sent text = x
  generalize net'.exch sent text = y
  intro hx
  cases hx with
  | refused e => exact .inr ⟨rq, _, _, _, _, rfl, rfl, fun _ _ => rfl⟩
  | broken e h1 h2 =>
    unfold exchange
    dsimp only
    rw [connected_mono h1, connected_mono h2]
    exact .inr ⟨rq, _, _, _, _, rfl, rfl, fun _ _ => rfl⟩
  | answered inc h1 h2 =>
    unfold exchange
    dsimp only
    rw [connected_mono h1, connected_mono h2]
    simp only [Res.ok_bind]
    cases hr : Response.read inc with
    | ok rs =>
      simp only []
      rw [completed_mono h1 _ rfl rfl, completed_mono h2 _ rfl rfl]
      exact .inr ⟨rq, _, _, _, _, rfl, rfl, fun _ _ => rfl⟩
    | err e => exact .inr ⟨rq, _, _, _, _, rfl, rfl, fun _ _ => rfl⟩
    | panic => exact .inl rfl
    | hang => exact .inl rfl

theorem tied_same {α : Type} {x y : Res α × St F} (h : Tied timeless False x y) : x.1 = y.1 ∧ SameState x.2 y.2 := by
  rcases h with ⟨h1, h2⟩ | h
  · exact ⟨h1, agrees_same.1 h2⟩
  · exact h.1.elim

/-- C87: expressions, in states that differ in nothing but times: the same result, the same messages sent, the same text printed, the same
variables, and records of the same exchanges. -/
theorem c87_block (net net' : Net) (h : SameAnswers net net') (es : List (Expr F)) (s s' : St F) (hs : SameState s s') :
    (runBlock net es s).1 = (runBlock net' es s').1 ∧ SameState (runBlock net es s).2 (runBlock net' es s').2 :=
  tied_same (runBlock_twice inferInstance net net' (sameAnswers_tied h) es s s' (agrees_same.2 hs))

/-- C87: a whole session. -/
theorem c87_session (net net' : Net) (h : SameAnswers net net') (input : List Input) (sent : List Str) (out : Str) :
    (repl (F := F) net input sent out).1 = (repl (F := F) net' input sent out).1 ∧
    SameState (repl (F := F) net input sent out).2 (repl net' input sent out).2 :=
  tied_same (replLoop_twice inferInstance net net' (sameAnswers_tied h) input ⟨Context.new, sent, out⟩ ⟨Context.new, sent, out⟩ rfl)

/-! ## The threads of `am test` -/

theorem Spec.Each.append {α : Type} {R : α → α → Prop} {a b c d : List α} (h : Each R a b) (h' : Each R c d) : Each R (a ++ c) (b ++ d) := by
  induction h with
  | nil => exact h'
  | cons h1 _ ih => exact .cons h1 ih

theorem Spec.Each.refl {α : Type} {R : α → α → Prop} (hr : ∀ a, R a a) : ∀ l : List α, Each R l l
  | [] => .nil
  | a :: l => .cons (hr a) (Spec.Each.refl hr l)

theorem Spec.Each.get {α : Type} {R : α → α → Prop} {a b : List α} (h : Each R a b) (i : Nat) :
    (a[i]? = none ∧ b[i]? = none) ∨ ∃ x y, a[i]? = some x ∧ b[i]? = some y ∧ R x y := by
  induction h generalizing i with
  | nil => exact .inl ⟨rfl, rfl⟩
  | cons h1 _ ih =>
    cases i with
    | zero => exact .inr ⟨_, _, rfl, rfl, h1⟩
    | succ i => exact ih i

theorem Spec.Each.set {α : Type} {R : α → α → Prop} {a b : List α} (h : Each R a b) (i : Nat) {x y : α} (hx : R x y) : Each R (a.set i x) (b.set i y) := by
  induction h generalizing i with
  | nil => exact .nil
  | cons h1 h2 ih =>
    cases i with
    | zero => exact .cons hx h2
    | succ i => exact .cons h1 (ih i)

theorem sameCounts_get {s s' : Stats} (h : SameCounts s s') (n : Str) : (amGet n s).map Stat.count = (amGet n s').map Stat.count := by
  unfold SameCounts at h
  induction s generalizing s' with
  | nil =>
    cases s' with
    | nil => rfl
    | cons b m => simp at h
  | cons a l ih =>
    cases s' with
    | nil => simp at h
    | cons b m =>
      obtain ⟨k, x⟩ := a
      obtain ⟨k', x'⟩ := b
      simp only [List.map_cons, List.cons.injEq, Prod.mk.injEq] at h
      obtain ⟨⟨rfl, h1⟩, h2⟩ := h
      by_cases hk : k = n
      · subst hk; simp [amGet, h1]
      · have := ih h2
        simp only [amGet, hk, if_false] at this ⊢
        exact this

theorem sameCounts_insert {s s' : Stats} (h : SameCounts s s') (n : Str) {x x' : Stat} (hx : x.count = x'.count) :
    SameCounts (amInsert n x s) (amInsert n x' s') := by
  unfold SameCounts at h ⊢
  induction s generalizing s' with
  | nil =>
    cases s' with
    | nil => simp [amInsert, hx]
    | cons b m => simp at h
  | cons a l ih =>
    cases s' with
    | nil => simp at h
    | cons b m =>
      obtain ⟨k, y⟩ := a
      obtain ⟨k', y'⟩ := b
      simp only [List.map_cons, List.cons.injEq, Prod.mk.injEq] at h
      obtain ⟨⟨rfl, h1⟩, h2⟩ := h
      by_cases hk : k = n
      · subst hk; simp [amInsert, hx, h2]
      · have := ih h2
        simp only [amInsert, hk, if_false, List.map_cons]
        rw [this, h1]

theorem sameCounts_add {s s' : Stats} (h : SameCounts s s') (n : Str) (t t' : Nat) : SameCounts (s.add n t) (s'.add n t') := by
  have hg := sameCounts_get h n
  unfold Stats.add
  cases h1 : amGet n s with
  | none =>
    cases h2 : amGet n s' with
    | none => exact sameCounts_insert h n rfl
    | some y => rw [h1, h2] at hg; simp at hg
  | some x =>
    cases h2 : amGet n s' with
    | none => rw [h1, h2] at hg; simp at hg
    | some y =>
      rw [h1, h2] at hg
      simp only [Option.map_some, Option.some.injEq] at hg
      exact sameCounts_insert h n (by simp [Stat.add, hg])

theorem sameCounts_batch {rs rs' : List Record} (hr : Each SameRecord rs rs') : ∀ {s s' : Stats}, SameCounts s s' →
    SameCounts (addBatch s rs) (addBatch s' rs') := by
  induction hr with
  | nil => exact fun h => h
  | cons h1 _ ih =>
    intro s s' h
    unfold addBatch at ih ⊢
    simp only [List.foldl_cons]
    refine ih ?_
    rw [h1.1]
    exact sameCounts_add h _ _ _

/-- What one step of a thread changes outside of it is the same. -/
structure SameEffect (i : Nat) (e e' : Effect) : Prop where
  out : Each (SameChunk F) (e.out.map fun t => (some i, t)) (e'.out.map fun t => (some i, t))
  sent : Each (Each SameRecord) e.sent e'.sent

theorem sameChunk_refl (l : List (Option Nat × Str)) : Each (SameChunk F) l l := Spec.Each.refl (fun c => .same c) l

theorem sameRecord_refl (r : Record) : SameRecord r r := ⟨rfl, rfl, rfl, rfl, rfl⟩

theorem samePc_done {p p' : WorkerPc} (h : SamePc p p') : (p == .done) = (p' == .done) := by
  cases h <;> rfl

theorem workerStep_same (cfg : Config) (cont : Bool) (i : Nat) {net net' : Net} (hn : SameAnswers net net') {w w' : Worker F} (h : SameWorker w w') :
    (w.step cfg cont i net = none ∧ w'.step cfg cont i net' = none) ∨
    ∃ v e v' e', w.step cfg cont i net = some (v, e) ∧ w'.step cfg cont i net' = some (v', e') ∧ SameWorker v v' ∧ SameEffect (F := F) i e e' := by
  obtain ⟨p, n, t, c, k, f⟩ := w
  obtain ⟨p', n', t', c', k', f'⟩ := w'
  obtain ⟨hp, rfl, rfl, hc, rfl, hf⟩ := h
  have nothing : SameEffect (F := F) i ⟨[], []⟩ ⟨[], []⟩ := ⟨.nil, .nil⟩
  have said : ∀ l : List Str, SameEffect (F := F) i ⟨l, []⟩ ⟨l, []⟩ := fun l => ⟨sameChunk_refl _, .nil⟩
  have printing : ∀ (rs rs' left left' : List Record), Each SameRecord rs rs' → Each SameRecord left left' →
      (Worker.step cfg cont i net ⟨.print rs left, n, t, c, k, f⟩ = none ∧ Worker.step cfg cont i net' ⟨.print rs' left', n, t, c', k, f'⟩ = none) ∨
      ∃ v e v' e', Worker.step cfg cont i net ⟨.print rs left, n, t, c, k, f⟩ = some (v, e) ∧
        Worker.step cfg cont i net' ⟨.print rs' left', n, t, c', k, f'⟩ = some (v', e') ∧ SameWorker v v' ∧ SameEffect (F := F) i e e' := by
    intro rs rs' left left' h1 h2
    cases h2 with
    | nil => exact .inr ⟨_, _, _, _, rfl, rfl, ⟨.write h1, rfl, rfl, hc, rfl, hf⟩, nothing⟩
    | cons h3 h4 => exact .inr ⟨_, _, _, _, rfl, rfl, ⟨.print h1 h4, rfl, rfl, hc, rfl, hf⟩, ⟨.cons (.report i h3) .nil, .nil⟩⟩
  have writing : ∀ (rs rs' : List Record), Each SameRecord rs rs' →
      (Worker.step cfg cont i net ⟨.write rs, n, t, c, k, f⟩ = none ∧ Worker.step cfg cont i net' ⟨.write rs', n, t, c', k, f'⟩ = none) ∨
      ∃ v e v' e', Worker.step cfg cont i net ⟨.write rs, n, t, c, k, f⟩ = some (v, e) ∧
        Worker.step cfg cont i net' ⟨.write rs', n, t, c', k, f'⟩ = some (v', e') ∧ SameWorker v v' ∧ SameEffect (F := F) i e e' := by
    intro rs rs' h1
    have hf' : SameFiles (f.map fun f => f ++ encBlock rs n i k) (f'.map fun f => f ++ encBlock rs' n i k) := by
      cases hf with
      | none => exact .none
      | some h => exact .some (.block n i k h h1)
    unfold Worker.step
    dsimp only
    split
    · exact .inr ⟨_, _, _, _, rfl, rfl, ⟨.send h1, rfl, rfl, hc, rfl, hf'⟩, nothing⟩
    · exact .inr ⟨_, _, _, _, rfl, rfl, ⟨.same _, rfl, rfl, hc, rfl, hf'⟩, nothing⟩
  have sending : ∀ (rs rs' : List Record), Each SameRecord rs rs' →
      (Worker.step cfg cont i net ⟨.send rs, n, t, c, k, f⟩ = none ∧ Worker.step cfg cont i net' ⟨.send rs', n, t, c', k, f'⟩ = none) ∨
      ∃ v e v' e', Worker.step cfg cont i net ⟨.send rs, n, t, c, k, f⟩ = some (v, e) ∧
        Worker.step cfg cont i net' ⟨.send rs', n, t, c', k, f'⟩ = some (v', e') ∧ SameWorker v v' ∧ SameEffect (F := F) i e e' := by
    intro rs rs' h1
    refine .inr ⟨_, _, _, _, rfl, rfl, ⟨.same _, rfl, rfl, hc, rfl, hf⟩, ⟨.nil, ?_⟩⟩
    dsimp only
    split
    · exact .cons h1 .nil
    · exact .nil
  cases hp with
  | print h1 h2 => exact printing _ _ _ _ h1 h2
  | write h1 => exact writing _ _ h1
  | send h1 => exact sending _ _ h1
  | same =>
    cases p with
    | print rs left => exact printing _ _ _ _ (Spec.Each.refl sameRecord_refl _) (Spec.Each.refl sameRecord_refl _)
    | write rs => exact writing _ _ (Spec.Each.refl sameRecord_refl _)
    | send rs => exact sending _ _ (Spec.Each.refl sameRecord_refl _)
    | done => exact .inl ⟨rfl, rfl⟩
    | stuck => exact .inl ⟨rfl, rfl⟩
    | head =>
      unfold Worker.step
      dsimp only
      split
      · split
        · exact .inr ⟨_, _, _, _, rfl, rfl, ⟨.same _, rfl, rfl, hc, rfl, hf⟩, nothing⟩
        · exact .inr ⟨_, _, _, _, rfl, rfl, ⟨.same _, rfl, rfl, hc, rfl, hf⟩, nothing⟩
      · exact .inr ⟨_, _, _, _, rfl, rfl, ⟨.same _, rfl, rfl, hc, rfl, hf⟩, nothing⟩
    | eval =>
      have hb := c87_block net net' hn t ⟨c, [], []⟩ ⟨c', [], []⟩ ⟨hc, rfl, rfl⟩
      unfold Worker.step
      dsimp only
      rcases hm : runBlock net t ⟨c, [], []⟩ with ⟨r, s1⟩
      rcases hm' : runBlock net' t ⟨c', [], []⟩ with ⟨r', t1⟩
      rw [hm, hm'] at hb
      obtain ⟨h1, h2, h3, h4⟩ := hb
      dsimp only at h1 h2 h3 h4
      subst h1
      obtain ⟨k1, k2, k3⟩ := h2
      cases r with
      | ok v =>
        simp only [Context.takeRecords]
        rw [h4]
        exact .inr ⟨_, _, _, _, rfl, rfl, ⟨.print k3 k3, rfl, rfl, ⟨k1, k2, .nil⟩, rfl, hf⟩, said _⟩
      | err e =>
        simp only [Context.takeRecords]
        rw [h4]
        split
        · exact .inr ⟨_, _, _, _, rfl, rfl, ⟨.same _, rfl, rfl, ⟨k1, k2, k3⟩, rfl, hf⟩, said _⟩
        · exact .inr ⟨_, _, _, _, rfl, rfl, ⟨.print k3 k3, rfl, rfl, ⟨k1, k2, .nil⟩, rfl, hf⟩, said _⟩
      | panic =>
        dsimp only
        rw [h4]
        exact .inr ⟨_, _, _, _, rfl, rfl, ⟨.same _, rfl, rfl, ⟨k1, k2, k3⟩, rfl, hf⟩, said _⟩
      | hang =>
        dsimp only
        rw [h4]
        exact .inr ⟨_, _, _, _, rfl, rfl, ⟨.same _, rfl, rfl, ⟨k1, k2, k3⟩, rfl, hf⟩, said _⟩

theorem each_done {ws ws' : List (Worker F)} (h : Each SameWorker ws ws') : (ws.all fun w => w.pc == .done) = ws'.all fun w => w.pc == .done := by
  induction h with
  | nil => rfl
  | cons h1 _ ih => rw [List.all_cons, List.all_cons, ih, samePc_done h1.pc]

theorem runStep_same (cfg : Config) {r r' : Run F} (h : SameRun r r') {s s' : RunStep} (hs : SameStep s s') :
    (r.step cfg s = none ∧ r'.step cfg s' = none) ∨ ∃ q q', r.step cfg s = some q ∧ r'.step cfg s' = some q' ∧ SameRun q q' := by
  obtain ⟨ws, ct, ch, ms, co, st, ou⟩ := r
  obtain ⟨ws', ct', ch', ms', co', st', ou'⟩ := r'
  obtain ⟨hw, h2, hch, h4, h5, hst, hou⟩ := h
  dsimp only at hw h2 hch h4 h5 hst hou
  subst h2 h4 h5
  cases hs with
  | work i hn =>
    unfold Run.step
    dsimp only
    rcases hw.get i with ⟨h1, h2⟩ | ⟨w, w', h1, h2, h3⟩
    · rw [h1, h2]; exact .inl ⟨rfl, rfl⟩
    · rw [h1, h2]
      dsimp only
      rcases workerStep_same cfg ct i hn h3 with ⟨h4, h5⟩ | ⟨v, e, v', e', h4, h5, h6, h7⟩
      · rw [h4, h5]; exact .inl ⟨rfl, rfl⟩
      · rw [h4, h5]
        exact .inr ⟨_, _, rfl, rfl, ⟨hw.set i h6, rfl, hch.append h7.sent, rfl, rfl, hst, hou.append h7.out⟩⟩
  | same _ hne =>
    cases s with
    | work i net => exact absurd rfl (hne i net)
    | stop => exact .inr ⟨_, _, rfl, rfl, ⟨hw, rfl, hch, rfl, rfl, hst, hou⟩⟩
    | drop =>
      unfold Run.step
      dsimp only
      split
      · exact .inr ⟨_, _, rfl, rfl, ⟨hw, rfl, hch, rfl, rfl, hst, hou⟩⟩
      · exact .inl ⟨rfl, rfl⟩
    | collect =>
      unfold Run.step
      dsimp only
      split
      · exact .inl ⟨rfl, rfl⟩
      · split
        · cases hch with
          | nil =>
            have hd : Run.disconnected cfg (⟨ws, ct, [], ms, .running, st, ou⟩ : Run F) = Run.disconnected cfg ⟨ws', ct, [], ms, .running, st', ou'⟩ := by
              unfold Run.disconnected Run.workersDone
              rw [each_done hw]
            dsimp only
            rw [hd]
            split
            · exact .inr ⟨_, _, rfl, rfl, ⟨hw, rfl, .nil, rfl, rfl, hst, hou.append (.cons (.stats hst) .nil)⟩⟩
            · exact .inl ⟨rfl, rfl⟩
          | cons hb hq =>
            exact .inr ⟨_, _, rfl, rfl, ⟨hw, rfl, hq, rfl, rfl, sameCounts_batch hb hst, hou⟩⟩
        · exact .inr ⟨_, _, rfl, rfl, ⟨hw, rfl, hch, rfl, rfl, hst, hou⟩⟩

/-- C87: the threads of `am test`, under the same choices of the scheduler with the network answering the same: every thread does the same,
the record files hold the same records, the same reports and texts are printed, and the statistics count the same; only times differ. -/
theorem c87_run (cfg : Config) {r r' : Run F} (h : SameRun r r') {sched sched' : List RunStep} (hs : Each SameStep sched sched') :
    (r.run cfg sched = none ∧ r'.run cfg sched' = none) ∨ ∃ q q', r.run cfg sched = some q ∧ r'.run cfg sched' = some q' ∧ SameRun q q' := by
  induction hs generalizing r r' with
  | nil => exact .inr ⟨r, r', rfl, rfl, h⟩
  | cons h1 _ ih =>
    unfold Run.run
    rcases runStep_same cfg h h1 with ⟨h2, h3⟩ | ⟨q, q', h2, h3, h4⟩
    · rw [h2, h3]; exact .inl ⟨rfl, rfl⟩
    · rw [h2, h3]; exact ih h4

/-- C87: a verdict does not depend on the clock. -/
theorem c87_flag {r r' : Record} (h : SameRecord r r') : r.flag = r'.flag := by
  unfold Record.flag
  rw [h.2.2.2.1]

/-- Two servers that answer the same bytes, the second one later. -/
example : SameAnswers ⟨fun _ _ => .answered ⟨utf8 c!"HTTP/1.1 200 OK\r\n\r\nhi", none⟩ ⟨5, 0, 0, 1, 2, 3, 4, 5, 6, 9⟩, fun _ => none⟩
    ⟨fun _ _ => .answered ⟨utf8 c!"HTTP/1.1 200 OK\r\n\r\nhi", none⟩ ⟨7, 0, 10, 10, 20, 30, 400, 5000, 60000, 8⟩, fun _ => none⟩ :=
  ⟨rfl, fun _ _ => .answered _ (by unfold Monotone; decide) (by unfold Monotone; decide)⟩

/-- Every run is the same as itself. -/
theorem sameRun_refl (r : Run F) : SameRun r r := by
  refine ⟨Spec.Each.refl (fun w => ⟨.same _, rfl, rfl, ⟨rfl, rfl, Spec.Each.refl sameRecord_refl _⟩, rfl, ?_⟩) _, rfl,
    Spec.Each.refl (fun b => Spec.Each.refl sameRecord_refl b) _, rfl, rfl, rfl, sameChunk_refl _⟩
  cases w.file with
  | none => exact .none
  | some f => exact .some (.same f)

end Am
