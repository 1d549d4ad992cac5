import Verif.Spec.Chronology
import Verif.Props.Programs
import Verif.Props.Responses
import Verif.Model.Float64
set_option linter.unusedSimpArgs false
set_option linter.unusedSectionVars false
/-! # C124: records tell when each exchange took place and how long it took -/
namespace Am
open Spec
variable {F : Type} [Rt F]

/-- A record begins when its exchange does, and ends when it does, or at once. -/
theorem exchange_when {rq rq' : Request} {x : Exchange} {rs : Response} {t : Time} {e : Str} (h : exchange rq x = .ok (rq', rs, t, e)) :
    t.start = (clocksOf x).sys0 ∧ (t.fin = (clocksOf x).sys1 ∨ t.fin = (clocksOf x).sys0) := by
  have hc : ∀ {c : Clocks} {t : Time}, Time.connected c = .ok t → t.start = c.sys0 ∧ t.fin = c.sys0 := by
    intro c t h
    unfold Time.connected at h
    dsimp only at h
    cases hd : durSub (since c.conn c.start) (since c.res1 c.res0) with
    | ok a => rw [hd] at h; cases h; exact ⟨rfl, rfl⟩
    | err e => rw [hd] at h; cases h
    | panic => rw [hd] at h; cases h
    | hang => rw [hd] at h; cases h
  cases x with
  | refused er c =>
    simp only [exchange, Res.ok.injEq, Prod.mk.injEq] at h
    obtain ⟨_, _, rfl, _⟩ := h
    exact ⟨rfl, .inr rfl⟩
  | broken er c =>
    simp only [exchange] at h
    cases hd : Time.connected c with
    | ok a =>
      rw [hd] at h
      cases h
      exact ⟨(hc hd).1, .inr (hc hd).2⟩
    | err e => rw [hd] at h; cases h
    | panic => rw [hd] at h; cases h
    | hang => rw [hd] at h; cases h
  | answered inc c =>
    simp only [exchange] at h
    cases hd : Time.connected c with
    | err e => rw [hd] at h; cases h
    | panic => rw [hd] at h; cases h
    | hang => rw [hd] at h; cases h
    | ok a =>
      rw [hd, Res.ok_bind] at h
      cases hr : Response.read inc with
      | panic => rw [hr] at h; cases h
      | hang => rw [hr] at h; cases h
      | err e =>
        rw [hr] at h
        by_cases hi : (inc.bytes.isEmpty && inc.failure.isSome) = true
        · simp only [hi, if_true] at h
          cases h
          exact ⟨(hc hd).1, .inr (hc hd).2⟩
        · simp only [hi] at h
          cases h
          exact ⟨(hc hd).1, .inr (hc hd).2⟩
      | ok rs =>
        rw [hr] at h
        dsimp only at h
        cases ht : a.completed c with
        | err e => rw [ht] at h; cases h
        | panic => rw [ht] at h; cases h
        | hang => rw [ht] at h; cases h
        | ok b =>
          rw [ht] at h
          cases h
          unfold Time.completed at ht
          dsimp only at ht
          cases h1 : durSub (since c.last c.rd) (since c.first c.rd) with
          | err e => rw [h1] at ht; cases ht
          | panic => rw [h1] at ht; cases ht
          | hang => rw [h1] at ht; cases ht
          | ok b1 =>
            rw [h1, Res.ok_bind] at ht
            cases h2 : durSub (since c.fin c.start) a.resolve with
            | err e => rw [h2] at ht; cases ht
            | panic => rw [h2] at ht; cases ht
            | hang => rw [h2] at ht; cases ht
            | ok b2 =>
              rw [h2, Res.ok_bind] at ht
              cases h3 : durSub b2 a.connect with
              | err e => rw [h3] at ht; cases ht
              | panic => rw [h3] at ht; cases ht
              | hang => rw [h3] at ht; cases ht
              | ok b3 =>
                rw [h3, Res.ok_bind] at ht
                cases h4 : durSub b3 b1 with
                | err e => rw [h4] at ht; cases ht
                | panic => rw [h4] at ht; cases ht
                | hang => rw [h4] at ht; cases ht
                | ok b4 =>
                  rw [h4, Res.ok_bind] at ht
                  cases h5 : durSub b4 (since c.first c.rd) with
                  | err e => rw [h5] at ht; cases ht
                  | panic => rw [h5] at ht; cases ht
                  | hang => rw [h5] at ht; cases ht
                  | ok b5 =>
                    rw [h5, Res.ok_bind] at ht
                    cases ht
                    exact ⟨(hc hd).1, .inl rfl⟩

/-- The records of messages sent after `before` begin no earlier than the exchanges before have ended. -/
theorem records_when {net : Net} (hn : Chronological net) {table : List (Str × (Str × List (Expr F)))} {before ms : List Str} {rs : List Record}
    (h : RecordsOf net table before ms rs) : InTimeOrder rs ∧
      (∀ r ∈ rs, ∃ more m, r.time.start = (clocksOf (net.exch (before ++ more) m)).sys0 ∧ r.time.fin ≤ (clocksOf (net.exch (before ++ more) m)).sys1) := by
  induction h with
  | nil b => exact ⟨⟨by simp, .nil⟩, by simp⟩
  | @cons b m rec ms rs h1 _ ih =>
    obtain ⟨⟨i1, i2⟩, i3⟩ := ih
    obtain ⟨_, _, _, _, hs⟩ := h1
    obtain ⟨k1, k2⟩ := exchange_when hs
    have hl := hn.lasts b m
    have k3 : rec.time.fin ≤ (clocksOf (net.exch b m)).sys1 := by rcases k2 with k | k <;> omega
    have k4 : rec.time.start ≤ rec.time.fin := by rcases k2 with k | k <;> omega
    refine ⟨⟨?_, ?_⟩, ?_⟩
    · intro r hr
      rcases List.mem_cons.1 hr with rfl | hr
      · exact k4
      · exact i1 r hr
    · refine List.pairwise_cons.2 ⟨fun r hr => ?_, i2⟩
      obtain ⟨more, m', e1, _⟩ := i3 r hr
      have := hn.next b m more m'
      rw [List.append_assoc, List.singleton_append] at e1
      rw [e1]
      omega
    · intro r hr
      rcases List.mem_cons.1 hr with rfl | hr
      · exact ⟨[], m, by rw [List.append_nil]; exact k1, by rw [List.append_nil]; exact k3⟩
      · obtain ⟨more, m', e1, e2⟩ := i3 r hr
        exact ⟨m :: more, m', by rw [e1, List.append_assoc, List.singleton_append], by rw [List.append_assoc, List.singleton_append] at e2; exact e2⟩

/-- C124: the records of a script are in order of time, whatever the script does and however it ends. -/
theorem c124_order {net : Net} (hn : Chronological net) (block : List (Expr F)) (s : St F) :
    ∃ recs, (runBlock net block s).2.ctx.records = s.ctx.records ++ recs ∧ InTimeOrder recs := by
  obtain ⟨msgs, recs, _, _, h2, h3, _⟩ := c20_records net block s
  exact ⟨recs, h2, (records_when hn h3).1⟩

theorem inTimeOrder_append {a b : List Record} (ha : InTimeOrder a) (hb : InTimeOrder b) (h : ∀ r ∈ a, ∀ r' ∈ b, r.time.fin ≤ r'.time.start) : InTimeOrder (a ++ b) := by
  refine ⟨fun r hr => ?_, List.pairwise_append.2 ⟨ha.2, hb.2, h⟩⟩
  rcases List.mem_append.1 hr with hr | hr
  · exact ha.1 r hr
  · exact hb.1 r hr

/-- C124: all records of a thread of `am test` are in order of time, over all its iterations. -/
theorem c124_iterations {test : List (Expr F)} {base : Context F} {nets : List Net} {hist : List (Str × List Record)} {c : Context F}
    (h : Iterations test base nets hist c) (hb : base.records = []) (hc : ∀ net ∈ nets, Chronological net) (hp : nets.Pairwise Earlier) :
    InTimeOrder (hist.flatMap Prod.snd) := by
  have key : c.records = [] ∧ InTimeOrder (hist.flatMap Prod.snd) ∧
      ∀ r ∈ hist.flatMap Prod.snd, ∃ net ∈ nets, ∃ sent m, r.time.fin ≤ (clocksOf (net.exch sent m)).sys1 := by
    induction h with
    | nil => exact ⟨hb, ⟨by simp, by simp⟩, by simp⟩
    | @snoc nets hist c net v s h hr ih =>
      obtain ⟨i0, i1, i2⟩ := ih (fun n hn => hc n (List.mem_append_left _ hn)) (List.pairwise_append.1 hp).1
      have hnet : net ∈ nets ++ [net] := List.mem_append_right _ (List.mem_singleton.2 rfl)
      obtain ⟨msgs, recs, _, _, h2, h3, _⟩ := c20_records net test ⟨c, [], []⟩
      rw [hr] at h2
      dsimp only at h2
      rw [i0, List.nil_append] at h2
      obtain ⟨k1, k2⟩ := records_when (hc net hnet) h3
      refine ⟨rfl, ?_, ?_⟩
      · rw [List.flatMap_append]
        simp only [List.flatMap_cons, List.flatMap_nil, List.append_nil]
        rw [h2]
        refine inTimeOrder_append i1 k1 fun r hr r' hr' => ?_
        obtain ⟨n, hn, sent, m, e1⟩ := i2 r hr
        obtain ⟨more, m', e2, _⟩ := k2 r' hr'
        have := (List.pairwise_append.1 hp).2.2 n hn net (List.mem_singleton.2 rfl) sent m ([] ++ more) m'
        rw [e2]
        exact Nat.le_trans e1 this
      · intro r hr'
        rw [List.flatMap_append] at hr'
        rcases List.mem_append.1 hr' with hr' | hr'
        · obtain ⟨n, hn, rest⟩ := i2 r hr'
          exact ⟨n, List.mem_append_left _ hn, rest⟩
        · simp only [List.flatMap_cons, List.flatMap_nil, List.append_nil] at hr'
          rw [h2] at hr'
          obtain ⟨more, m', _, e2⟩ := k2 r hr'
          exact ⟨net, hnet, _, _, e2⟩
  exact key.2.1

/-- C124 for an exchange whose answer was read (missing: failed exchanges, `c124_failed`): the record tells when the exchange took place and how long it took. -/
theorem c124_tells_partial (net : Net) (sent : List Str) (m : Str) (rq : Request) (rs : Response) (t : Time) (e : Str)
    (h : Monotone (clocksOf (net.exch sent m))) (he : send net sent m = .ok (rq, rs, t, e))
    (ha : ∃ inc c, net.exch sent m = .answered inc c ∧ Response.read inc = .ok rs) : TellsTime t (clocksOf (net.exch sent m)) := by
  obtain ⟨inc, c, hx, hr⟩ := ha
  unfold send at he
  rw [hx] at h he ⊢
  simp only [exchange, clocksOf] at h he ⊢
  rw [connected_mono h, Res.ok_bind, hr] at he
  dsimp only at he
  rw [completed_mono h _ rfl rfl] at he
  cases he
  exact ⟨rfl, rfl, rfl⟩

/-- C124: the record of every exchange that fails says that it took no time at all: it ends when it begins, and its total is zero. So statistics count it with 0 ms. -/
theorem c124_failed (net : Net) (sent : List Str) (m : Str) (rq : Request) (rs : Response) (t : Time) (e : Str)
    (he : send net sent m = .ok (rq, rs, t, e)) (ha : ∀ inc c, net.exch sent m = .answered inc c → Response.read inc ≠ .ok rs) :
    t.start = (clocksOf (net.exch sent m)).sys0 ∧ t.fin = t.start ∧ t.total = 0 := by
  have hc : ∀ {c : Clocks} {t : Time}, Time.connected c = .ok t → t.start = c.sys0 ∧ t.fin = c.sys0 ∧ t.total = 0 := by
    intro c t h
    unfold Time.connected at h
    dsimp only at h
    cases hd : durSub (since c.conn c.start) (since c.res1 c.res0) with
    | ok a => rw [hd] at h; cases h; exact ⟨rfl, rfl, rfl⟩
    | err e => rw [hd] at h; cases h
    | panic => rw [hd] at h; cases h
    | hang => rw [hd] at h; cases h
  unfold send at he
  generalize hx : net.exch sent m = x at *
  cases x with
  | refused er c =>
    simp only [exchange, Res.ok.injEq, Prod.mk.injEq] at he
    obtain ⟨_, _, rfl, _⟩ := he
    exact ⟨rfl, rfl, rfl⟩
  | broken er c =>
    simp only [exchange] at he
    cases hd : Time.connected c with
    | ok a =>
      rw [hd] at he
      cases he
      obtain ⟨h1, h2, h3⟩ := hc hd
      exact ⟨h1, h2.trans h1.symm, h3⟩
    | err e => rw [hd] at he; cases he
    | panic => rw [hd] at he; cases he
    | hang => rw [hd] at he; cases he
  | answered inc c =>
    simp only [exchange] at he
    cases hd : Time.connected c with
    | err e => rw [hd] at he; cases he
    | panic => rw [hd] at he; cases he
    | hang => rw [hd] at he; cases he
    | ok a =>
      obtain ⟨h1, h2, h3⟩ := hc hd
      rw [hd, Res.ok_bind] at he
      cases hr : Response.read inc with
      | panic => rw [hr] at he; cases he
      | hang => rw [hr] at he; cases he
      | err e =>
        rw [hr] at he
        by_cases hi : (inc.bytes.isEmpty && inc.failure.isSome) = true
        · simp only [hi, if_true] at he
          cases he
          exact ⟨h1, h2.trans h1.symm, h3⟩
        · simp only [hi] at he
          cases he
          exact ⟨h1, h2.trans h1.symm, h3⟩
      | ok rs' =>
        exfalso
        rw [hr] at he
        dsimp only at he
        cases ht : a.completed c with
        | err e => rw [ht] at he; cases he
        | panic => rw [ht] at he; cases he
        | hang => rw [ht] at he; cases he
        | ok b =>
          rw [ht] at he
          cases he
          exact ha inc c rfl hr

/-- C124 is false for failed exchanges: the server takes the connection and breaks it after 30 seconds; the record says 0. -/
theorem c124_false : ∃ (net : Net) (m : Str) (rq : Request) (rs : Response) (t : Time) (e : Str), send net [] m = .ok (rq, rs, t, e) ∧
    Monotone (clocksOf (net.exch [] m)) ∧ (clocksOf (net.exch [] m)).fin - (clocksOf (net.exch [] m)).start = 30000000000 ∧ t.total = 0 ∧
    ¬ TellsTime t (clocksOf (net.exch [] m)) :=
  ⟨⟨fun _ _ => .answered ⟨[], some c!"connection reset by peer"⟩ ⟨5, 0, 0, 0, 0, 0, 30000000000, 30000000000, 30000000000, 30000000005⟩, fun _ => none⟩,
    c!"GET http://h/", _, _, _, _, rfl, by unfold Monotone; decide, rfl, rfl, fun h => by cases h.2.2⟩

/-- A network with a clock: every exchange takes three units of time, and the next one begins one unit later. -/
def clockNet : Net :=
  ⟨fun sent _ => .refused .hostNotFound ⟨4 * sent.length, 0, 0, 0, 0, 0, 0, 0, 0, 4 * sent.length + 3⟩, fun _ => none⟩

/-- Concrete case for `c124_order` and `c124_iterations`. -/
example : Chronological clockNet := ⟨fun _ _ => by simp [clockNet, clocksOf], fun _ _ _ _ => by simp [clockNet, clocksOf]; omega⟩

/-- The same network later. -/
def laterNet : Net :=
  ⟨fun sent _ => .refused .hostNotFound ⟨4 * sent.length + 50, 0, 0, 0, 0, 0, 0, 0, 0, 4 * sent.length + 53⟩, fun _ => none⟩

/-- One with an end, so that `Earlier` holds: `c124_iterations`. -/
example : Earlier ⟨fun _ _ => .refused .hostNotFound ⟨1, 0, 0, 0, 0, 0, 0, 0, 0, 1⟩, fun _ => none⟩ laterNet := fun _ _ _ _ => by
  simp [laterNet, clocksOf]

/-- Concrete case for `c124_tells_partial`: resolve 2, connect 5, write 8, delay 5, read 10. -/
example : (match send ⟨fun _ _ => .answered ⟨utf8 c!"HTTP/1.1 200 OK\r\n\r\nhi", none⟩ ⟨5, 100, 100, 102, 107, 115, 120, 130, 130, 35⟩, fun _ => none⟩ []
    c!"GET http://h/" with | .ok (_, _, t, e) => t == ⟨5, 35, 30, 2, 5, 8, 5, 10⟩ && e == [] | _ => false) = true ∧
    TellsTime ⟨5, 35, 30, 2, 5, 8, 5, 10⟩ ⟨5, 100, 100, 102, 107, 115, 120, 130, 130, 35⟩ := by
  refine ⟨?_, rfl, rfl, rfl⟩
  decide +kernel

end Am
