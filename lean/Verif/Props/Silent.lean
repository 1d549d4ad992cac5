import Verif.Spec.Silent
import Verif.Props.Io
/-! # Property C91: connections that stay open -/
set_option linter.unusedSimpArgs false
namespace Am
open Spec

/-- What is still to come, as one byte sequence. -/
def OpenRead.abs (r : OpenRead) : List UInt8 := r.buf ++ delivered r.calls

theorem openSize_abs (r : OpenRead) : r.size = r.abs.length := by
  simp [OpenRead.size, OpenRead.abs, delivered_length]

theorem openUntilLf_abs : ∀ (calls : List ReadCall) (buf acc : List UInt8),
    ((buf ++ delivered calls).contains 10 = true → ∃ r, openUntilLf buf calls acc = .ok (acc ++ ((buf ++ delivered calls).takeWhile (· ≠ 10) ++ [10]), r) ∧
      r.abs = ((buf ++ delivered calls).dropWhile (· ≠ 10)).drop 1) ∧
    ((buf ++ delivered calls).contains 10 = false → openUntilLf buf calls acc = .hang)
  | calls, buf, acc => by
    unfold openUntilLf
    by_cases hc : buf.contains 10 = true
    · obtain ⟨h1, h2, h3⟩ := contains_append_left (b := delivered calls) hc
      rw [if_pos hc]
      refine ⟨fun _ => ⟨_, by rw [h2], by rw [h3]; rfl⟩, fun h => by rw [h1] at h; cases h⟩
    · have hc' : buf.contains 10 = false := by simpa using hc
      rw [if_neg hc]
      obtain ⟨h1, h2, h3⟩ := contains_append_right (b := delivered calls) hc'
      cases calls with
      | nil =>
        refine ⟨fun h => ?_, fun _ => rfl⟩
        rw [h1] at h
        cases h
      | cons c cs =>
        cases c with
        | data b bs =>
          obtain ⟨i1, i2⟩ := openUntilLf_abs cs (b :: bs) (acc ++ buf)
          have e : delivered (.data b bs :: cs) = b :: bs ++ delivered cs := rfl
          refine ⟨fun h => ?_, fun h => ?_⟩
          · rw [h1, e] at h
            obtain ⟨r, k1, k2⟩ := i1 h
            exact ⟨r, by dsimp only; rw [k1, h2, e]; simp only [List.append_assoc], by rw [k2, h3, e]⟩
          · rw [h1, e] at h
            exact i2 h
        | interrupted t =>
          obtain ⟨i1, i2⟩ := openUntilLf_abs cs [] (acc ++ buf)
          have e : delivered (.interrupted t :: cs) = [] ++ delivered cs := rfl
          refine ⟨fun h => ?_, fun h => ?_⟩
          · rw [h1, e] at h
            obtain ⟨r, k1, k2⟩ := i1 h
            exact ⟨r, by dsimp only; rw [k1, h2, e]; simp only [List.append_assoc], by rw [k2, h3, e]⟩
          · rw [h1, e] at h
            exact i2 h
termination_by calls => calls.length

theorem first_byte {l r l' r' : List UInt8} (h : l ++ 10 :: r = l' ++ 10 :: r') (hl : (10 : UInt8) ∉ l) (hl' : (10 : UInt8) ∉ l') : l = l' ∧ r = r' := by
  induction l generalizing l' with
  | nil =>
    cases l' with
    | nil => simpa using h
    | cons b l' => simp only [List.nil_append, List.cons_append, List.cons.injEq] at h; exact absurd (h.1 ▸ List.mem_cons_self) hl'
  | cons b l ih =>
    cases l' with
    | nil => simp only [List.nil_append, List.cons_append, List.cons.injEq] at h; exact absurd (h.1 ▸ List.mem_cons_self) hl
    | cons b' l' =>
      simp only [List.cons_append, List.cons.injEq] at h
      obtain ⟨rfl, h⟩ := h
      obtain ⟨rfl, rfl⟩ := ih h (fun hm => hl (List.mem_cons_of_mem _ hm)) (fun hm => hl' (List.mem_cons_of_mem _ hm))
      exact ⟨rfl, rfl⟩

/-- A line of text, decoded with its line feed. -/
theorem textLine {l : List UInt8} (hl : (10 : UInt8) ∉ l) :
    (∃ s, utf8 s = l ∧ '\n' ∉ s ∧ fromUtf8 (l ++ [10]) = some (s ++ ['\n'])) ∨ (NotText l ∧ fromUtf8 (l ++ [10]) = none) := by
  have lf : ∀ s, utf8 (s ++ ['\n']) = utf8 s ++ [10] := fun s => by
    rw [utf8_append, utf8_cons, show String.utf8EncodeChar '\n' = [10] from by decide]; rfl
  by_cases h : ∃ s, utf8 s = l
  · obtain ⟨s, rfl⟩ := h
    exact .inl ⟨s, rfl, fun hm => hl (utf8_lf_mem hm), by rw [← lf]; exact fromUtf8_utf8 _⟩
  · refine .inr ⟨fun s hs => h ⟨s, hs⟩, ?_⟩
    cases hf : fromUtf8 (l ++ [10]) with
    | none => rfl
    | some s =>
      exfalso
      have hu := utf8_of_fromUtf8 hf
      have hm : '\n' ∈ s := by
        apply Classical.byContradiction
        intro hn
        have := utf8_no_lf hn 10 (by rw [hu]; simp)
        exact this rfl
      obtain ⟨a, b, rfl, ha⟩ := mem_first hm
      have e : utf8 a ++ 10 :: utf8 b = l ++ 10 :: [] := by
        rw [← hu, utf8_append, utf8_cons, show String.utf8EncodeChar '\n' = [10] from by decide]; rfl
      exact h ⟨a, (first_byte e (fun hm => utf8_no_lf ha 10 hm rfl) hl).1⟩

theorem split_lf {b : List UInt8} (h : b.contains 10 = true) :
    b = b.takeWhile (· ≠ 10) ++ 10 :: (b.dropWhile (· ≠ 10)).drop 1 ∧ (10 : UInt8) ∉ b.takeWhile (· ≠ 10) := by
  induction b with
  | nil => cases h
  | cons x xs ih =>
    by_cases hx : x = 10
    · subst hx; simp
    · have hc : xs.contains 10 = true := by
        simp only [List.contains_cons, Bool.or_eq_true, beq_iff_eq] at h
        rcases h with h | h
        · exact absurd h.symm hx
        · exact h
      obtain ⟨h1, h2⟩ := ih hc
      have hp : decide (x ≠ 10) = true := decide_eq_true hx
      rw [List.takeWhile_cons, if_pos hp, List.dropWhile_cons, if_pos hp]
      exact ⟨by rw [List.cons_append, ← h1], fun hm => by
        rcases List.mem_cons.1 hm with h | h
        · exact hx h.symm
        · exact h2 h⟩

/-- One line on an open connection: read like on any continuation of it, or refused like on any continuation, or waited for. -/
theorem openLine (r : OpenRead) :
    (∃ s r', r.readLine = .ok (s ++ ['\n'], r') ∧ '\n' ∉ s ∧ r.abs = utf8 s ++ 10 :: r'.abs ∧
      ∀ more f, readLine ⟨r.abs ++ more, f⟩ = .ok (s ++ ['\n'], ⟨r'.abs ++ more, f⟩)) ∨
    (r.readLine = .err utf8Error ∧ (∃ l rest, r.abs = l ++ 10 :: rest ∧ 10 ∉ l ∧ NotText l) ∧ ∀ more f, readLine ⟨r.abs ++ more, f⟩ = .err utf8Error) ∨
    (r.readLine = .hang ∧ 10 ∉ r.abs ∧ ∀ e, readLine ⟨r.abs, some e⟩ = .err e) := by
  obtain ⟨h1, h2⟩ := openUntilLf_abs r.calls r.buf []
  change (r.abs.contains 10 = true → _) at h1
  change (r.abs.contains 10 = false → _) at h2
  cases hc : r.abs.contains 10 with
  | true =>
    obtain ⟨r', k1, k2⟩ := h1 hc
    obtain ⟨s1, s2⟩ := split_lf hc
    change openUntilLf r.buf r.calls [] = .ok ([] ++ (r.abs.takeWhile (· ≠ 10) ++ [10]), r') at k1
    change r'.abs = (r.abs.dropWhile (· ≠ 10)).drop 1 at k2
    rw [← k2] at s1
    have any : ∀ more f, readLine ⟨r.abs ++ more, f⟩ = match fromUtf8 (r.abs.takeWhile (· ≠ 10) ++ [10]) with
        | some s => .ok (s, ⟨r'.abs ++ more, f⟩)
        | none => .err utf8Error := by
      intro more f
      obtain ⟨a1, a2, a3⟩ := contains_append_left (b := more) hc
      unfold readLine
      rw [if_pos a1]
      dsimp only
      rw [a2, a3, ← k2]
      rfl
    rcases textLine s2 with ⟨s, t1, t2, t3⟩ | ⟨t1, t3⟩
    · refine .inl ⟨s, r', ?_, t2, by rw [t1]; exact s1, fun more f => by rw [any, t3]⟩
      unfold OpenRead.readLine
      rw [k1]
      dsimp only
      rw [List.nil_append, t3]
    · refine .inr (.inl ⟨?_, ⟨_, _, s1, s2, t1⟩, fun more f => by rw [any, t3]⟩)
      unfold OpenRead.readLine
      rw [k1]
      dsimp only
      rw [List.nil_append, t3]
  | false =>
    refine .inr (.inr ⟨?_, ?_, fun e => ?_⟩)
    · unfold OpenRead.readLine
      rw [h2 hc]
    · intro hm
      rw [List.contains_iff_mem.2 hm] at hc
      cases hc
    · unfold readLine
      dsimp only
      rw [if_neg (by rw [hc]; decide)]

theorem badFields_lf {b : List UInt8} (h : BadFields b) : 10 ∈ b := by cases h <;> simp

theorem badHead_lf {b : List UInt8} (h : BadHead b) : 10 ∈ b := by cases h <;> simp

theorem notText_utf8 {s : Str} {l : List UInt8} (h : utf8 s = l) : ¬ NotText l := fun hn => hn s h

theorem badFields_cons {s : Str} {r : List UInt8} (hs : '\n' ∉ s) : BadFields (utf8 s ++ 10 :: r) ↔ (∃ c ∈ s, isWs c = false) ∧ BadFields r := by
  constructor
  · intro h
    generalize hb : utf8 s ++ 10 :: r = b at h
    cases h with
    | here l r' hl hn =>
      obtain ⟨rfl, rfl⟩ := first_byte hb (fun hm => utf8_no_lf hs 10 hm rfl) hl
      exact absurd rfl (hn s)
    | later s' r' hs' hw hr =>
      obtain ⟨h1, rfl⟩ := first_byte hb (fun hm => utf8_no_lf hs 10 hm rfl) (fun hm => utf8_no_lf hs' 10 hm rfl)
      cases utf8_inj h1
      exact ⟨hw, hr⟩
  · rintro ⟨h1, h2⟩
    exact .later s r hs h1 h2

theorem badHead_cons {s : Str} {r : List UInt8} (hs : '\n' ∉ s) : BadHead (utf8 s ++ 10 :: r) ↔ BadFields r := by
  constructor
  · intro h
    generalize hb : utf8 s ++ 10 :: r = b at h
    cases h with
    | first l r' hl hn =>
      obtain ⟨rfl, rfl⟩ := first_byte hb (fun hm => utf8_no_lf hs 10 hm rfl) hl
      exact absurd rfl (hn s)
    | fields s' r' hs' hr =>
      obtain ⟨h1, rfl⟩ := first_byte hb (fun hm => utf8_no_lf hs 10 hm rfl) (fun hm => utf8_no_lf hs' 10 hm rfl)
      exact hr
  · exact fun h => .fields s r hs h

theorem openHeaders : ∀ (n : Nat) (r : OpenRead), r.abs.length < n →
    (∃ hs r', r.readHeaders n = .ok (hs, r') ∧ ¬ BadFields r.abs ∧
      ∀ more f m, (r.abs ++ more).length < m → readHeaders m ⟨r.abs ++ more, f⟩ = .ok (hs, ⟨r'.abs ++ more, f⟩)) ∨
    (r.readHeaders n = .err utf8Error ∧ BadFields r.abs ∧ ∀ more f m, (r.abs ++ more).length < m → readHeaders m ⟨r.abs ++ more, f⟩ = .err utf8Error) ∨
    (r.readHeaders n = .hang ∧ ¬ BadFields r.abs ∧ ∀ e m, r.abs.length < m → readHeaders m ⟨r.abs, some e⟩ = .err e)
  | 0, _, h => absurd h (Nat.not_lt_zero _)
  | n + 1, r, hn => by
    rw [OpenRead.readHeaders]
    rcases openLine r with ⟨s, r1, h1, h2, h3, h4⟩ | ⟨h1, ⟨l, rest, h2, h3, h4⟩, h5⟩ | ⟨h1, h2, h3⟩
    · rw [h1, Res.ok_bind]
      dsimp only
      have hlen : r1.abs.length < r.abs.length := by rw [h3]; simp; omega
      by_cases hb : (trim (s ++ ['\n'])).isEmpty = true
      · rw [if_pos hb]
        have hblank : ¬ ∃ c ∈ s, isWs c = false := by
          rintro ⟨c, hc, hw⟩
          rw [isEmpty_trim.1 hb c (by simp [hc])] at hw
          cases hw
        refine .inl ⟨[], r1, rfl, ?_, ?_⟩
        · rw [h3, badFields_cons h2]
          exact fun h => hblank h.1
        · intro more f m hm
          cases m with
          | zero => omega
          | succ m =>
            rw [readHeaders, h4, Res.ok_bind]
            dsimp only
            rw [if_pos hb]
            rfl
      · rw [if_neg hb]
        have hword : ∃ c ∈ s, isWs c = false := by
          apply Classical.byContradiction
          intro hno
          refine hb (isEmpty_trim.2 fun c hc => ?_)
          rcases List.mem_append.1 hc with hc | hc
          · cases hw : isWs c with
            | true => rfl
            | false => exact absurd ⟨c, hc, hw⟩ hno
          · cases List.mem_singleton.1 hc
            decide
        have hbad : BadFields r.abs ↔ BadFields r1.abs := by
          rw [h3, badFields_cons h2]
          exact ⟨And.right, fun h => ⟨hword, h⟩⟩
        have step : ∀ more f m, (r.abs ++ more).length < m → ∃ m', m = m' + 1 ∧ (r1.abs ++ more).length < m' ∧
            readHeaders m ⟨r.abs ++ more, f⟩ = (do
              let (hs, r) ← readHeaders m' ⟨r1.abs ++ more, f⟩
              match respHeaderOf (s ++ ['\n']) with
              | some h => pure (h :: hs, r)
              | none => pure (hs, r)) := by
          intro more f m hm
          cases m with
          | zero => omega
          | succ m =>
            refine ⟨m, rfl, ?_, ?_⟩
            · rw [List.length_append] at hm ⊢; omega
            · rw [readHeaders, h4, Res.ok_bind]
              dsimp only
              rw [if_neg hb]
              rfl
        rcases openHeaders n r1 (by omega) with ⟨hs, r2, k1, k2, k3⟩ | ⟨k1, k2, k3⟩ | ⟨k1, k2, k3⟩
        · rw [k1, Res.ok_bind]
          dsimp only
          cases ho : respHeaderOf (s ++ ['\n']) with
          | none =>
            refine .inl ⟨hs, r2, rfl, fun h => k2 (hbad.1 h), fun more f m hm => ?_⟩
            obtain ⟨m', rfl, h6, h7⟩ := step more f m hm
            rw [h7, k3 more f m' h6, Res.ok_bind]
            dsimp only
            rw [ho]
            rfl
          | some x =>
            refine .inl ⟨x :: hs, r2, rfl, fun h => k2 (hbad.1 h), fun more f m hm => ?_⟩
            obtain ⟨m', rfl, h6, h7⟩ := step more f m hm
            rw [h7, k3 more f m' h6, Res.ok_bind]
            dsimp only
            rw [ho]
            rfl
        · rw [k1]
          refine .inr (.inl ⟨rfl, hbad.2 k2, fun more f m hm => ?_⟩)
          obtain ⟨m', rfl, h6, h7⟩ := step more f m hm
          rw [h7, k3 more f m' h6]
          rfl
        · rw [k1]
          refine .inr (.inr ⟨rfl, fun h => k2 (hbad.1 h), fun e m hm => ?_⟩)
          obtain ⟨m', rfl, h6, h7⟩ := step [] (some e) m (by rw [List.append_nil]; exact hm)
          simp only [List.append_nil] at h6 h7
          rw [h7, k3 e m' h6]
          rfl
    · rw [h1]
      refine .inr (.inl ⟨rfl, by rw [h2]; exact .here l rest h3 h4, fun more f m hm => ?_⟩)
      cases m with
      | zero => omega
      | succ m => rw [readHeaders, h5]; rfl
    · rw [h1]
      refine .inr (.inr ⟨rfl, fun h => h2 (badFields_lf h), fun e m hm => ?_⟩)
      cases m with
      | zero => omega
      | succ m => rw [readHeaders, h3]; rfl

theorem await_cases (b : UInt8) (bs : List UInt8) (cs : List ReadCall) :
    (Response.await (.data b bs :: cs) = (.err utf8Error, true) ∧ BadHead (delivered (.data b bs :: cs)) ∧
      ∀ more f, Response.read ⟨delivered (.data b bs :: cs) ++ more, f⟩ = .err utf8Error) ∨
    (Response.await (.data b bs :: cs) = (.hang, true) ∧ ¬ BadHead (delivered (.data b bs :: cs)) ∧
      ∀ e, Response.read ⟨delivered (.data b bs :: cs), some e⟩ = .err e) := by
  have hd : delivered (.data b bs :: cs) = OpenRead.abs ⟨b :: bs, cs⟩ := rfl
  rw [hd]
  unfold Response.await
  dsimp only
  rcases openLine ⟨b :: bs, cs⟩ with ⟨s, r1, h1, h2, h3, h4⟩ | ⟨h1, ⟨l, rest, h2, h3, h4⟩, h5⟩ | ⟨h1, h2, h3⟩
  · rw [h1, Res.ok_bind]
    dsimp only
    rw [openSize_abs]
    have hbad : BadHead (OpenRead.abs ⟨b :: bs, cs⟩) ↔ BadFields r1.abs := by rw [h3]; exact badHead_cons h2
    have step : ∀ more f, Response.read ⟨OpenRead.abs ⟨b :: bs, cs⟩ ++ more, f⟩ = (do
        let ws := splitWs (s ++ ['\n'])
        let (headers, r) ← readHeaders ((r1.abs ++ more).length + 1) ⟨r1.abs ++ more, f⟩
        let body ← readRest r
        pure ⟨parseText ws[0]?, parseStatus ws[1]?, parseText ws[2]?, headers, body⟩) := by
      intro more f
      unfold Response.read
      rw [h4, Res.ok_bind]
    rcases openHeaders (r1.abs.length + 1) r1 (Nat.lt_succ_self _) with ⟨hs, r2, k1, k2, k3⟩ | ⟨k1, k2, k3⟩ | ⟨k1, k2, k3⟩
    · rw [k1, Res.ok_bind]
      refine .inr ⟨rfl, fun h => k2 (hbad.1 h), fun e => ?_⟩
      have := step [] (some e)
      rw [List.append_nil] at this
      rw [this, k3 [] (some e) _ (Nat.lt_succ_self _), Res.ok_bind]
      rfl
    · rw [k1]
      refine .inl ⟨rfl, hbad.2 k2, fun more f => ?_⟩
      rw [step, k3 more f _ (Nat.lt_succ_self _)]
      rfl
    · rw [k1]
      refine .inr ⟨rfl, fun h => k2 (hbad.1 h), fun e => ?_⟩
      have := step [] (some e)
      simp only [List.append_nil] at this
      rw [this, k3 e _ (Nat.lt_succ_self _)]
      rfl
  · rw [h1]
    refine .inl ⟨rfl, by rw [h2]; exact .first l rest h3 h4, fun more f => ?_⟩
    unfold Response.read
    rw [h5]
    rfl
  · rw [h1]
    refine .inr ⟨rfl, fun h => h2 (badHead_lf h), fun e => ?_⟩
    unfold Response.read
    rw [h3]
    rfl

theorem delivered_append (a b : List ReadCall) : delivered (a ++ b) = delivered a ++ delivered b := by
  induction a with
  | nil => rfl
  | cons c cs ih => cases c <;> simp [delivered, ih]

/-- C91, as stated: when a complete response has arrived, the exchange ends. -/
def AnswerEnds : Prop := ∀ (cs : List ReadCall) (bytes : List UInt8), Delivers cs bytes → CompleteAnswer bytes → (Response.await cs).1 ≠ .hang

/-- C91: as long as the connection stays open no response is delivered, whatever has arrived. -/
theorem c91_never (cs : List ReadCall) : (Response.await cs).1 = .hang ∨ ∃ e, (Response.await cs).1 = .err e := by
  cases cs with
  | nil => exact .inl rfl
  | cons c cs =>
    cases c with
    | interrupted t => exact .inr ⟨t, rfl⟩
    | data b bs =>
      rcases await_cases b bs cs with ⟨h, _⟩ | ⟨h, _⟩
      · exact .inr ⟨_, by rw [h]⟩
      · exact .inl (by rw [h])

/-- C91, exactly when the program waits: unless the first call is interrupted or a line of the head is not UTF-8. -/
theorem c91_exact (cs : List ReadCall) (bytes : List UInt8) (h : Delivers cs bytes) :
    (Response.await cs).1 = .hang ↔ StartsAtOnce cs ∧ ¬ BadHead bytes := by
  rw [delivers_iff] at h
  subst h
  cases cs with
  | nil => exact ⟨fun _ => ⟨fun _ _ h => (nomatch h), fun h => (nomatch badHead_lf h)⟩, fun _ => rfl⟩
  | cons c cs =>
    cases c with
    | interrupted t => exact ⟨fun h => (nomatch h), fun h => absurd rfl (h.1 t cs)⟩
    | data b bs =>
      rcases await_cases b bs cs with ⟨h, h1, _⟩ | ⟨h, h1, _⟩
      · exact ⟨fun h' => (by rw [h] at h'; cases h'), fun h' => absurd h1 h'.2⟩
      · exact ⟨fun _ => ⟨fun _ _ h => (nomatch h), h1⟩, fun _ => by rw [h]⟩

/-- C91: what is reported early is what would be reported whatever else arrived and however the connection ended. -/
theorem c91_early (cs : List ReadCall) (e : Str) (first : Bool) (h : Response.await cs = (.err e, first)) (more : List ReadCall) (ending : Option Str) :
    Response.receive ⟨cs ++ more, ending⟩ = (.err e, first) := by
  cases cs with
  | nil => cases h
  | cons c cs =>
    cases c with
    | interrupted t => exact h ▸ rfl
    | data b bs =>
      rcases await_cases b bs cs with ⟨h1, h2, h3⟩ | ⟨h1, _⟩
      · rw [h1] at h
        cases h
        rw [receive_incoming]
        have hi : Reads.incoming ⟨.data b bs :: cs ++ more, ending⟩ = ⟨delivered (.data b bs :: cs) ++ delivered more, ending⟩ := by
          rw [← delivered_append]; rfl
        rw [hi, h3]
        rfl
      · rw [h1] at h
        cases h

/-- C91: while the program waits nothing is decided yet: if the connection broke now, its error would be the result. -/
theorem c91_undecided (cs : List ReadCall) (h : (Response.await cs).1 = .hang) (e : Str) : (Response.receive ⟨cs, some e⟩).1 = .err e := by
  cases cs with
  | nil => rfl
  | cons c cs =>
    cases c with
    | interrupted t => cases h
    | data b bs =>
      rcases await_cases b bs cs with ⟨h1, _⟩ | ⟨_, _, h3⟩
      · rw [h1] at h; cases h
      · rw [receive_incoming]
        exact h3 e

/-- C91 for servers that close the connection after a complete response (missing: servers that keep it open, see `c91_complete`): the exchange ends, with a
response. -/
theorem c91_closed_partial (cs : List ReadCall) (bytes : List UInt8) (h : Delivers cs bytes) (hs : StartsAtOnce cs) (hc : CompleteAnswer bytes) :
    ∃ r, (Response.receive ⟨cs, none⟩).1 = .ok r := by
  obtain ⟨s, _, _, _, _, _, _, _, rfl, _⟩ := hc
  rw [c67_whole cs _ none h hs]
  exact (c41_valid ⟨utf8 s, none⟩).1.2 ⟨rfl, s, rfl⟩

/-- C91: no complete response at all ends the exchange while the server keeps the connection open. -/
theorem c91_complete (cs : List ReadCall) (bytes : List UInt8) (h : Delivers cs bytes) (hs : StartsAtOnce cs) (hc : CompleteAnswer bytes) :
    (Response.await cs).1 = .hang := by
  rcases c91_never cs with h1 | ⟨e, h1⟩
  · exact h1
  · obtain ⟨r, hr⟩ := c91_closed_partial cs bytes h hs hc
    have h2 := c91_early cs e (Response.await cs).2 (Prod.ext h1 rfl) [] none
    rw [List.append_nil] at h2
    rw [h2] at hr
    cases hr

/-- A response with a body of declared length. -/
def hiText : Str := c!"HTTP/1.1 200 OK\r\nContent-Length: 2\r\n\r\nhi"

theorem hi_complete : CompleteAnswer (utf8 hiText) := by
  refine ⟨hiText, c!"HTTP/1.1 200 OK\r", c!"Content-Length: 2\r\n\r\nhi", c!"hi", [c!"HTTP/1.1", c!"200", c!"OK"], 200, [⟨c!"Content-Length", c!"2"⟩], utf8 c!"hi",
    rfl, .more c!"HTTP/1.1 200 OK\r" _ (by decide), words_iff.2 (by decide), .inl (.digits c!"200" (by decide) (by decide) (by decide)), ?_, ?_, ?_⟩
  · refine .field _ c!"Content-Length" c!" 2\r" _ _ c!"\r\nhi" _ _ (.more c!"Content-Length: 2\r" _ (by decide)) (by decide)
      ?_ ?_ (.blank _ c!"\r" _ (.more c!"\r" _ (by decide)) (by decide))
    · have := trim_trims c!"Content-Length"
      rwa [show trim c!"Content-Length" = c!"Content-Length" by decide] at this
    · have := trim_trims c!" 2\r"
      rwa [show trim c!" 2\r" = c!"2" by decide] at this
  · decide +kernel
  · decide +kernel

/-- The bytes of `hiText`, in two pieces. -/
def hiPieces : List ReadCall := [.data 72 ((utf8 hiText).drop 1 |>.take 9), .data 48 ((utf8 hiText).drop 11)]

/-- C91 is false: the response has arrived completely, in two pieces, and the exchange does not end. -/
theorem c91_false : ¬ AnswerEnds := fun h =>
  h hiPieces (utf8 hiText) (delivers_iff.2 (by decide +kernel)) hi_complete
    (c91_complete hiPieces (utf8 hiText) (delivers_iff.2 (by decide +kernel)) (fun _ _ h => (nomatch h)) hi_complete)

/-- C91: the request asks the server to close the connection exactly when its message says so; nothing is added. -/
theorem c91_asks (mp : List Part → Option (List UInt8)) (m line : Str) (ls left : List Str) (hs : List Header)
    (hl : Lines (trim m) (line :: ls)) (hb : HeaderBlock ls hs left) : AsksToClose (Request.ofStr mp m).1.headers ↔ AsksToClose hs := by
  unfold Request.ofStr
  rw [lines_iff.1 hl]
  dsimp only
  rw [headerBlock_unique hb]

/-- C91: a message that asks for it, and one that does not. -/
theorem c91_asks_cases : AsksToClose [⟨c!"Host", c!"h"⟩, ⟨c!"connection", c!"TE, Close"⟩] ∧ ¬ AsksToClose [⟨c!"Host", c!"h"⟩, ⟨c!"Connection", c!"keep-alive"⟩] ∧
    ¬ AsksToClose (Request.ofStr (fun _ => none) c!"GET http://h/").1.headers := by
  unfold AsksToClose
  decide +kernel

/-- C91 for the whole of `Client::send` on a connection that stays open: it is connected, has written the request without an error and waits for ever, or it does
what it would do whatever else arrived and however the connection ended. -/
theorem c91_send (w : Wire) (mp : List Part → Option (List UInt8)) (m : Str) (s : Sent) (h : w.sendOpen mp m = some s) :
    (s.result = .hang ∧ (Response.await w.reads).1 = .hang ∧ (∃ a, w.connect (Request.ofStr mp m).1.url = some (.ok a) ∧ s.peer = some a) ∧
      (Request.writeTo (Request.ofStr mp m).1 (Request.ofStr mp m).2 w.copy w.flushed w.cap ⟨w.writes, []⟩).1 = none) ∨
    ∀ more ending, Wire.send { w with reads := w.reads ++ more, ending } mp m = some s := by
  have hconn : ∀ more ending url, Wire.connect { w with reads := w.reads ++ more, ending } url = w.connect url := fun _ _ _ => rfl
  unfold Wire.sendOpen at h
  rcases ho : Request.ofStr mp m with ⟨request, content⟩
  rw [ho] at h
  dsimp only at h ⊢
  cases hc : w.connect request.url with
  | none => rw [hc] at h; cases h
  | some r =>
    rw [hc] at h
    cases r with
    | error e =>
      refine .inr fun more ending => ?_
      unfold Wire.send
      rw [ho]
      dsimp only
      rw [hconn, hc]
      exact h
    | ok a =>
      dsimp only at h
      have hsend : ∀ more ending, Wire.send { w with reads := w.reads ++ more, ending } mp m =
          match Time.connected w.clocks with
          | .ok t =>
            let (e, sink) := request.writeTo content w.copy w.flushed w.cap ⟨w.writes, []⟩
            match e with
            | some e => some ⟨.ok (request, .default, t, e.text), some a, sink.got⟩
            | none =>
              let (r, first) := Response.receive ⟨w.reads ++ more, streamEnd (request.url.scheme == .Https) ending⟩
              let t := if first then { t with delay := since w.clocks.first w.clocks.rd } else t
              match r with
              | .ok response =>
                some ⟨(do let t ← t.completed w.clocks; pure (request, response, t, [])), some a, sink.got⟩
              | .err e => some ⟨.ok (request, .default, t, (HttpError.readFailed e).text), some a, sink.got⟩
              | .panic => some ⟨.panic, some a, sink.got⟩
              | .hang => some ⟨.hang, some a, sink.got⟩
          | .err e => some ⟨.err e, some a, []⟩
          | .panic => some ⟨.panic, some a, []⟩
          | .hang => some ⟨.hang, some a, []⟩ := by
        intro more ending
        unfold Wire.send
        rw [ho]
        dsimp only
        rw [hconn, hc]
        rfl
      cases ht : Time.connected w.clocks with
      | ok t =>
        rw [ht] at h
        dsimp only at h
        rcases hw : Request.writeTo request content w.copy w.flushed w.cap ⟨w.writes, []⟩ with ⟨e, sink⟩
        rw [hw] at h
        cases e with
        | some e =>
          refine .inr fun more ending => ?_
          rw [hsend, ht]
          dsimp only
          rw [hw]
          exact h
        | none =>
          dsimp only at h
          rcases hr : Response.await w.reads with ⟨r, first⟩
          rw [hr] at h
          rcases c91_never w.reads with hn | ⟨e, hn⟩
          · rw [hr] at hn
            cases hn
            dsimp only at h
            cases h
            exact .inl ⟨rfl, rfl, ⟨a, rfl, rfl⟩, rfl⟩
          · rw [hr] at hn
            cases hn
            refine .inr fun more ending => ?_
            rw [hsend, ht]
            dsimp only
            rw [hw]
            dsimp only
            rw [c91_early w.reads e first hr]
            exact h
      | err e => rw [ht] at h; exact .inr fun more ending => by rw [hsend, ht]; exact h
      | panic => rw [ht] at h; exact .inr fun more ending => by rw [hsend, ht]; exact h
      | hang => rw [ht] at h; exact .inr fun more ending => by rw [hsend, ht]; exact h

/-- Concrete cases: an empty connection, a status line that is not UTF-8, and a response without body. -/
example : Response.await [] = (.hang, false) ∧ (Response.await [.data 255 [10]]).1 = .err utf8Error ∧
    (Response.await [.data 72 ((utf8 c!"HTTP/1.1 204 No Content\r\n\r\n").drop 1)]).1 = .hang := by
  refine ⟨rfl, ?_, ?_⟩ <;> decide +kernel

end Am
