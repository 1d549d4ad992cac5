import Verif.Props.Replay
import Verif.Spec.Run
import Verif.Props.Running
import Verif.Props.Answers
set_option linter.unusedSimpArgs false
/-! # C131: the iterations of a thread reproduced from their records -/
namespace Am
open Am.Spec
variable {F : Type} [Rt F]

/-- C131: the iterations of a thread of `am test`, repeated on networks each of which answers from the records of its iteration, all succeed again, print
the same, make the same records up to times and requests and leave the same variables. -/
theorem c131_thread {test : List (Expr F)} {base c : Context F} {nets : List Net} {hist : List (Str × List Record)} (h : Iterations test base nets hist c)
    (hb : base.records = []) : ∀ (nets' : List Net), nets'.length = hist.length →
    (∀ (i : Nat) (net' : Net) (p : Str × List Record), nets'[i]? = some net' → hist[i]? = some p → Replays net' 0 p.2) →
    ∃ hist', Iterations test base nets' hist' c ∧ Each (fun p q => p.1 = q.1 ∧ Each Replayed p.2 q.2) hist hist' := by
  suffices key : c.records = [] ∧ ∀ (nets' : List Net), nets'.length = hist.length →
      (∀ (i : Nat) (net' : Net) (p : Str × List Record), nets'[i]? = some net' → hist[i]? = some p → Replays net' 0 p.2) →
      ∃ hist', Iterations test base nets' hist' c ∧ Each (fun p q => p.1 = q.1 ∧ Each Replayed p.2 q.2) hist hist' from key.2
  induction h with
  | nil =>
    refine ⟨hb, fun nets' hl _ => ?_⟩
    cases List.length_eq_zero_iff.1 hl
    exact ⟨[], .nil, .nil⟩
  | @snoc nets hist c net v s h hr ih =>
    refine ⟨rfl, fun nets' hl hn => ?_⟩
    rcases List.eq_nil_or_concat nets' with rfl | ⟨nets1, net', rfl⟩
    · simp at hl
    rw [List.concat_eq_append] at *
    simp only [List.length_append, List.length_singleton, Nat.add_right_cancel_iff] at hl
    obtain ⟨hist', h1, h2⟩ := ih.2 nets1 hl (by
      intro i n p hi hp
      refine hn i n p ?_ ?_
      · rw [List.getElem?_append_left (List.getElem?_eq_some_iff.1 hi).1]; exact hi
      · rw [List.getElem?_append_left (List.getElem?_eq_some_iff.1 hp).1]; exact hp)
    have hrep : Replays net' 0 s.ctx.records := hn hist.length net' (s.out, s.ctx.records) (by rw [← hl]; simp) (by simp)
    obtain ⟨recs, g1, g2⟩ := c131_block net net' test ⟨c, [], []⟩ ⟨c, [], []⟩ (sameButRecords_refl _) (by rw [hr]; exact ⟨nofun, nofun⟩)
    rw [hr] at g1 g2
    dsimp only at g1 g2
    rw [ih.1, List.nil_append] at g1
    obtain ⟨g3, g4, recs', g5, g6⟩ := g2 (g1 ▸ hrep)
    rw [ih.1, List.nil_append] at g5
    generalize hr' : runBlock net' test ⟨c, [], []⟩ = r' at g3 g4 g5
    obtain ⟨o, s'⟩ := r'
    dsimp only at g3 g4 g5
    subst g3
    refine ⟨hist' ++ [(s'.out, s'.ctx.records)], ?_, each_append h2 (.cons ⟨g4.out, by rw [g1, g5]; exact g6⟩ .nil)⟩
    have := Iterations.snoc h1 hr'
    have he : ({ s.ctx with records := [] } : Context F) = { s'.ctx with records := [] } := by
      show Context.mk _ _ _ = Context.mk _ _ _
      rw [g4.inner, g4.requests]
    rw [he]
    exact this

/-- C131: such networks exist for every thread, and they look at nothing but the number of messages sent. -/
theorem c131_thread_exists {test : List (Expr F)} {base c : Context F} {nets : List Net} {hist : List (Str × List Record)} (h : Iterations test base nets hist c)
    (hb : base.records = []) : ∃ nets' : List Net, nets'.length = hist.length ∧ (∀ net' ∈ nets', CountsOnly net') ∧
    ∀ (i : Nat) (net' : Net) (p : Str × List Record), nets'[i]? = some net' → hist[i]? = some p → Replays net' 0 p.2 := by
  suffices key : c.records = [] ∧ ∃ nets' : List Net, nets'.length = hist.length ∧ (∀ net' ∈ nets', CountsOnly net') ∧
      ∀ (i : Nat) (net' : Net) (p : Str × List Record), nets'[i]? = some net' → hist[i]? = some p → Replays net' 0 p.2 from key.2
  induction h with
  | nil => exact ⟨hb, [], rfl, by simp, by simp⟩
  | @snoc nets hist c net v s h hr ih =>
    obtain ⟨i0, nets', i1, i2, i3⟩ := ih
    obtain ⟨net', recs, g1, g2, g3⟩ := c131_exists net test ⟨c, [], []⟩
    rw [hr] at g2
    dsimp only at g2
    rw [i0, List.nil_append] at g2
    refine ⟨rfl, nets' ++ [net'], by simp [i1], ?_, ?_⟩
    · intro n hn
      rcases List.mem_append.1 hn with hn | hn
      · exact i2 n hn
      · rw [List.mem_singleton.1 hn]; exact g1
    · intro i n p hn hp
      by_cases hi : i < hist.length
      · rw [List.getElem?_append_left (by omega)] at hn
        rw [List.getElem?_append_left hi] at hp
        exact i3 i n p hn hp
      · have h1 := (List.getElem?_eq_some_iff.1 hp).1
        simp only [List.length_append, List.length_singleton] at h1
        have hi : i = hist.length := by omega
        subst hi
        rw [List.getElem?_append_right (by omega)] at hn hp
        simp only [i1, Nat.sub_self, List.getElem?_cons_zero, Option.some.injEq] at hn hp
        subst hn hp
        rw [g2]
        exact g3

/-! ## From record files -/

theorem each_replayed_join {a b c : List Record} (h : Each Replayed a c) : Each Replayed b c → Each Replayed a b := by
  induction h generalizing b with
  | nil => intro h; cases h; exact .nil
  | cons h _ ih =>
    intro h'
    cases h' with
    | cons g h' => exact .cons ⟨h.1.trans g.1.symm, h.2.1.trans g.2.1.symm, h.2.2.trans g.2.2.symm⟩ (ih h')

theorem each_replayed_swap {a b : List Record} (h : Each Replayed a b) : Each Replayed b a := by
  induction h with
  | nil => exact .nil
  | cons h _ ih => exact .cons ⟨h.1.symm, h.2.1.symm, h.2.2.symm⟩ ih

theorem each_replayed_responses {a b : List Record} (h : Each Replayed a b) : a.map (·.response) = b.map (·.response) := by
  induction h with
  | nil => rfl
  | cons h _ ih => rw [List.map_cons, List.map_cons, ih, h.2.1]

/-- What answers from the longer list of records answers from the shorter one. -/
theorem replays_prefix {net : Net} {n : Nat} {recs recs' : List Record} (h : Replays net n recs') (hp : recs.map (·.response) <+: recs'.map (·.response)) :
    Replays net n recs := by
  intro i r hi sent m hl
  obtain ⟨rest, hp⟩ := hp
  have h1 : (recs.map (·.response))[i]? = some r.response := by rw [List.getElem?_map, hi]; rfl
  have h2 : (recs'.map (·.response))[i]? = some r.response := by
    rw [← hp, List.getElem?_append_left (List.getElem?_eq_some_iff.1 h1).1]; exact h1
  rw [List.getElem?_map] at h2
  cases hr : recs'[i]? with
  | none => rw [hr] at h2; cases h2
  | some r' =>
    rw [hr] at h2
    obtain ⟨rq, t, e, h3⟩ := h i r' hr sent m hl
    have h4 : r'.response = r.response := Option.some.inj h2
    exact ⟨rq, t, e, by rw [h3, h4]⟩

/-- Two runs of a script from the same state, one of which has got the first of the responses the other has got. -/
theorem determined_prefix (net net' : Net) (b : List (Expr F)) (s : St F) (he : Ended (runBlock net b s).1) (he' : Ended (runBlock net' b s).1)
    {recs recs' : List Record} (h : (runBlock net b s).2.ctx.records = s.ctx.records ++ recs) (h' : (runBlock net' b s).2.ctx.records = s.ctx.records ++ recs')
    (hp : recs.map (·.response) <+: recs'.map (·.response)) :
    (runBlock net' b s).1 = (runBlock net b s).1 ∧ SameButRecords (runBlock net b s).2 (runBlock net' b s).2 ∧ Each Replayed recs recs' := by
  obtain ⟨netR, r1, _, g1, g2⟩ := c131_exists net' b s
  cases List.append_cancel_left (h'.symm.trans g1)
  obtain ⟨r2, k1, k2⟩ := c131_block net netR b s s (sameButRecords_refl s) he
  cases List.append_cancel_left (h.symm.trans k1)
  obtain ⟨r3, l1, l2⟩ := c131_block net' netR b s s (sameButRecords_refl s) he'
  cases List.append_cancel_left (h'.symm.trans l1)
  obtain ⟨k3, k4, rr, k5, k6⟩ := k2 (replays_prefix g2 hp)
  obtain ⟨l3, l4, rr', l5, l6⟩ := l2 g2
  cases List.append_cancel_left (k5.symm.trans l5)
  exact ⟨l3.symm.trans k3, ⟨k4.inner.trans l4.inner.symm, k4.requests.trans l4.requests.symm, k4.sent.trans l4.sent.symm, k4.out.trans l4.out.symm⟩,
    each_replayed_join k6 l6⟩

/-- C131: the responses determine the run: two runs of a script from the same state whose records begin with the same responses, as far as both go, end
alike, with the same variables, messages and output, and their records tell the same. -/
theorem c131_determined (net net' : Net) (b : List (Expr F)) (s : St F) (he : Ended (runBlock net b s).1) (he' : Ended (runBlock net' b s).1)
    {recs recs' : List Record} (h : (runBlock net b s).2.ctx.records = s.ctx.records ++ recs) (h' : (runBlock net' b s).2.ctx.records = s.ctx.records ++ recs')
    {x y : List Response} (hp : recs.map (·.response) ++ x = recs'.map (·.response) ++ y) :
    (runBlock net' b s).1 = (runBlock net b s).1 ∧ SameButRecords (runBlock net b s).2 (runBlock net' b s).2 ∧ Each Replayed recs recs' := by
  rcases List.prefix_or_prefix_of_prefix ⟨x, hp⟩ (⟨y, rfl⟩ : recs'.map (·.response) <+: recs'.map (·.response) ++ y) with hp | hp
  · exact determined_prefix net net' b s he he' h h' hp
  · obtain ⟨h1, h2, h3⟩ := determined_prefix net' net b s he' he h' h hp
    exact ⟨h1.symm, ⟨h2.inner.symm, h2.requests.symm, h2.sent.symm, h2.out.symm⟩, each_replayed_swap h3⟩

/-- C131: the same for all iterations of a thread. -/
theorem c131_stream {test : List (Expr F)} {c c' : Context F} : ∀ {nets nets' : List Net} {hist hist' : List (Str × List Record)} {base : Context F},
    Iterations test base nets hist c → Iterations test base nets' hist' c' → base.records = [] → nets.length = nets'.length →
    (hist.flatMap Prod.snd).map (·.response) = (hist'.flatMap Prod.snd).map (·.response) →
    Each (fun p q => p.1 = q.1 ∧ Each Replayed p.2 q.2) hist hist' ∧ c = c'
  | [], [], _, _, _, h, h', _, _, _ => by
    obtain ⟨rfl, rfl⟩ := iterations_unique h .nil
    obtain ⟨rfl, rfl⟩ := iterations_unique h' .nil
    exact ⟨.nil, rfl⟩
  | [], _ :: _, _, _, _, _, _, _, hl, _ => by simp at hl
  | _ :: _, [], _, _, _, _, _, _, hl, _ => by simp at hl
  | n :: nets, n' :: nets', _, _, base, h, h', hb, hl, hr => by
    obtain ⟨v, s, hist, e1, rfl, e3⟩ := iterations_uncons h n nets rfl
    obtain ⟨v', s', hist', e1', rfl, e3'⟩ := iterations_uncons h' n' nets' rfl
    simp only [List.flatMap_cons, List.map_append] at hr
    obtain ⟨g1, g2, g3⟩ := c131_determined n n' test ⟨base, [], []⟩ (by rw [e1]; exact ⟨nofun, nofun⟩) (by rw [e1']; exact ⟨nofun, nofun⟩)
      (recs := s.ctx.records) (recs' := s'.ctx.records) (by rw [e1, hb]; rfl) (by rw [e1', hb]; rfl) hr
    rw [e1, e1'] at g2
    have he : ({ s.ctx with records := [] } : Context F) = { s'.ctx with records := [] } := by
      show Context.mk _ _ _ = Context.mk _ _ _
      rw [g2.inner, g2.requests]
    rw [he] at e3
    rw [each_replayed_responses g3] at hr
    obtain ⟨k1, k2⟩ := c131_stream e3 e3' rfl (by simpa using hl) (List.append_cancel_left hr)
    exact ⟨.cons ⟨g2.out, g3⟩ k1, k2⟩

/-- The records of a batch with what their data say besides. -/
def batchItems (name : Str) (thread number : Nat) : Nat → List Record → List (Str × Nat × Nat × Nat × Record)
  | _, [] => []
  | order, r :: rs => (name, thread, number, order, r) :: batchItems name thread number (order + 1) rs

theorem batchItems_data (name : Str) (t n : Nat) : ∀ (rs : List Record) (o : Nat),
    batchData name t n o rs = (batchItems name t n o rs).map (fun q => recordDatum q.1 q.2.1 q.2.2.1 q.2.2.2.1 q.2.2.2.2) ∧
    rs = (batchItems name t n o rs).map (·.2.2.2.2)
  | [], _ => ⟨rfl, rfl⟩
  | r :: rs, o => by
    obtain ⟨h1, h2⟩ := batchItems_data name t n rs (o + 1)
    exact ⟨by rw [batchData, h1]; rfl, by rw [batchItems, List.map_cons, ← h2]⟩

theorem items_responses : ∀ (a b : List (Str × Nat × Nat × Nat × Record)), a.map (fun q => recordDatum q.1 q.2.1 q.2.2.1 q.2.2.2.1 q.2.2.2.2) =
    b.map (fun q => recordDatum q.1 q.2.1 q.2.2.1 q.2.2.2.1 q.2.2.2.2) → (a.map (·.2.2.2.2)).map (·.response) = (b.map (·.2.2.2.2)).map (·.response)
  | [], [], _ => rfl
  | [], _ :: _, h => by simp at h
  | _ :: _, [], h => by simp at h
  | p :: a, q :: b, h => by
    simp only [List.map_cons, List.cons.injEq] at h ⊢
    exact ⟨(recordDatum_inj h.1).2.2.2.2.2.2.2.2.2.2.2.1, items_responses a b h.2⟩

theorem filesData_items (bs : List Batch) : ∃ items : List (Str × Nat × Nat × Nat × Record),
    filesData bs = items.map (fun q => recordDatum q.1 q.2.1 q.2.2.1 q.2.2.2.1 q.2.2.2.2) ∧ bs.flatMap (·.records) = items.map (·.2.2.2.2) := by
  induction bs with
  | nil => exact ⟨[], rfl, rfl⟩
  | cons b bs ih =>
    obtain ⟨items, h1, h2⟩ := ih
    obtain ⟨g1, g2⟩ := batchItems_data b.name b.thread b.number b.records 0
    refine ⟨batchItems b.name b.thread b.number 0 b.records ++ items, ?_, ?_⟩
    · rw [List.map_append, ← h1, ← g1]; rfl
    · rw [List.map_append, ← h2, ← g2]; rfl

theorem filesData_responses {bs bs' : List Batch} (h : filesData bs = filesData bs') :
    (bs.flatMap (·.records)).map (·.response) = (bs'.flatMap (·.records)).map (·.response) := by
  obtain ⟨items, h1, h2⟩ := filesData_items bs
  obtain ⟨items', h1', h2'⟩ := filesData_items bs'
  rw [h2, h2']
  exact items_responses _ _ (h1.symm.trans (h.trans h1'))

theorem hist_records (name : Str) (i : Nat) : ∀ (hist : List (Str × List Record)) (k : Nat),
    ((hist.zipIdx k).map (fun p => (⟨p.1.2, name, i, p.2⟩ : Batch))).flatMap (·.records) = hist.flatMap Prod.snd
  | [], _ => rfl
  | p :: hist, k => by
    rw [List.zipIdx_cons, List.map_cons, List.flatMap_cons, List.flatMap_cons, hist_records name i hist (k + 1)]

/-- C131: the record file of a thread tells everything: two threads, of any two runs, that execute the same test equally often from the same context and
leave the same file have printed the same in every iteration, have sent equally many requests and have the same variables in the end. -/
theorem c131_file {test : List (Expr F)} {base c c' : Context F} {nets nets' : List Net} {hist hist' : List (Str × List Record)}
    (h : Iterations test base nets hist c) (h' : Iterations test base nets' hist' c') (hb : base.records = []) (hl : nets.length = nets'.length)
    (name : Str) (i : Nat) (hf : ∀ b ∈ hist.zipIdx.map (fun p => (⟨p.1.2, name, i, p.2⟩ : Batch)), BatchFits b)
    (hf' : ∀ b ∈ hist'.zipIdx.map (fun p => (⟨p.1.2, name, i, p.2⟩ : Batch)), BatchFits b) (he : iterationFile name i hist = iterationFile name i hist') :
    Each (fun p q => p.1 = q.1 ∧ Each Replayed p.2 q.2) hist hist' ∧ c = c' := by
  have := filesData_responses (c32_file_unambiguous _ _ hf hf' he)
  rw [hist_records, hist_records] at this
  exact c131_stream h h' hb hl this

/-- Two iterations of a test with one request on networks that refuse for different reasons. -/
example : ∃ (nets : List Net) (hist : List (Str × List Record)) (c : Context F), nets.length = 2 ∧ (∃ p q, hist = [p, q] ∧ p.2.length = 1 ∧ q.2.length = 1) ∧
    Iterations [.letE c!"r" (.call c!"a" [])] ⟨[], [(c!"a", (c!"GET http://h/a", []))], []⟩ nets hist c := by
  let net : HttpError → Net := fun e => ⟨fun _ _ => .refused e ⟨5, 0, 0, 1, 2, 3, 4, 5, 6, 9⟩, fun _ => none⟩
  exact ⟨_, _, _, rfl, ⟨_, _, rfl, rfl, rfl⟩, .snoc (net := net .hostNotFound) (.snoc (net := net .tcpConnectFailed) .nil rfl) rfl⟩

/-- Two networks that refuse a request to a host at different times, and differ in what comes after it: the responses of the one request are the same. -/
example : ∃ (net net' : Net) (r r' : Record), net.exch [] c!"GET http://h/a" ≠ net'.exch [] c!"GET http://h/a" ∧ r ≠ r' ∧
    (runBlock net [.letE c!"r" (.call c!"a" [])] (⟨⟨[], [(c!"a", (c!"GET http://h/a", []))], []⟩, [], []⟩ : St F)).2.ctx.records = [] ++ [r] ∧
    (runBlock net' [.letE c!"r" (.call c!"a" [])] (⟨⟨[], [(c!"a", (c!"GET http://h/a", []))], []⟩, [], []⟩ : St F)).2.ctx.records = [] ++ [r'] ∧
    [r].map (·.response) ++ [] = [r'].map (·.response) ++ [] := by
  refine ⟨⟨fun _ _ => .refused .hostNotFound ⟨5, 0, 0, 1, 2, 3, 4, 5, 6, 9⟩, fun _ => none⟩,
    ⟨fun sent _ => if sent = [] then .refused .hostNotFound ⟨7, 0, 0, 1, 2, 3, 4, 5, 6, 9⟩ else .refused .tcpConnectFailed ⟨5, 0, 0, 1, 2, 3, 4, 5, 6, 9⟩, fun _ => none⟩,
    _, _, ?_, ?_, rfl, rfl, rfl⟩
  · decide
  · intro h
    have : (5 : Nat) = 7 := congrArg (fun r => r.time.start) h
    exact absurd this (by decide)

end Am
