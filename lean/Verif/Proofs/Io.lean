import Verif.Model.Io
import Verif.Proofs.Response
/-! # The buffered reader delivers what the whole byte sequence would -/
set_option linter.unusedSimpArgs false
namespace Am

/-- The bytes of a list of calls. -/
def delivered : List ReadCall → List UInt8
  | [] => []
  | .data b bs :: cs => b :: bs ++ delivered cs
  | .interrupted _ :: cs => delivered cs

/-- What a buffered reader still delivers, as one byte sequence. -/
def BufRead.abs (r : BufRead) : Incoming := ⟨r.buf ++ delivered r.inner.calls, r.inner.ending⟩

/-- The same for a stream that has not been read from: an interruption of the very first call counts as a failure (response.rs:31). -/
def Reads.incoming (r : Reads) : Incoming :=
  match r.calls with
  | .interrupted t :: _ => ⟨[], some t⟩
  | _ => ⟨delivered r.calls, r.ending⟩

theorem delivered_length : ∀ cs : List ReadCall, (delivered cs).length = (cs.map ReadCall.size).sum
  | [] => rfl
  | .data b bs :: cs => by simp [delivered, ReadCall.size, delivered_length cs]; omega
  | .interrupted _ :: cs => by simp [delivered, ReadCall.size, delivered_length cs]

theorem size_abs (r : BufRead) : r.size = r.abs.bytes.length := by
  simp [BufRead.size, BufRead.abs, delivered_length]

theorem contains_append_left {a b : List UInt8} (h : a.contains 10 = true) :
    (a ++ b).contains 10 = true ∧ (a ++ b).takeWhile (· ≠ 10) = a.takeWhile (· ≠ 10) ∧
      ((a ++ b).dropWhile (· ≠ 10)).drop 1 = (a.dropWhile (· ≠ 10)).drop 1 ++ b := by
  induction a with
  | nil => simp at h
  | cons x xs ih =>
    by_cases hx : x = 10
    · subst hx; simp
    · have hc : xs.contains 10 = true := by
        simp only [List.contains_cons, Bool.or_eq_true, beq_iff_eq] at h
        rcases h with h | h
        · exact absurd h.symm hx
        · exact h
      obtain ⟨h1, h2, h3⟩ := ih hc
      refine ⟨?_, ?_, ?_⟩
      · simp only [List.cons_append, List.contains_cons, h1, Bool.or_true]
      · simp only [List.cons_append, List.takeWhile_cons, decide_eq_true hx]
        simp [hx] at h2 ⊢; exact h2
      · simp only [List.cons_append, List.dropWhile_cons]
        simp [hx] at h3 ⊢; exact h3

theorem contains_append_right {a b : List UInt8} (h : a.contains 10 = false) :
    (a ++ b).contains 10 = b.contains 10 ∧ (a ++ b).takeWhile (· ≠ 10) = a ++ b.takeWhile (· ≠ 10) ∧
      (a ++ b).dropWhile (· ≠ 10) = b.dropWhile (· ≠ 10) := by
  induction a with
  | nil => simp
  | cons x xs ih =>
    simp only [List.contains_cons, Bool.or_eq_false_iff, beq_eq_false_iff_ne] at h
    obtain ⟨hx, hc⟩ := h
    obtain ⟨h1, h2, h3⟩ := ih hc
    have hx' : x ≠ 10 := fun h => hx h.symm
    refine ⟨?_, ?_, ?_⟩
    · rw [List.cons_append, List.contains_cons, h1]; simp [hx]
    · simp [hx'] at h2 ⊢; exact h2
    · simp [hx'] at h3 ⊢; exact h3

/-- The calls that `read_until` may still need. -/
def BufRead.need (r : BufRead) : Nat := r.inner.calls.length + (if r.buf.isEmpty then 1 else 2)

theorem untilLf_abs : ∀ (n : Nat) (r : BufRead) (acc : List UInt8), r.need ≤ n →
    (r.abs.bytes.contains 10 = true → ∃ r', r.untilLf n acc = .ok (acc ++ (r.abs.bytes.takeWhile (· ≠ 10) ++ [10]), r') ∧
      r'.abs = ⟨(r.abs.bytes.dropWhile (· ≠ 10)).drop 1, r.inner.ending⟩) ∧
    (r.abs.bytes.contains 10 = false → r.inner.ending = none → ∃ r', r.untilLf n acc = .ok (acc ++ r.abs.bytes, r') ∧ r'.abs = ⟨[], none⟩) ∧
    (r.abs.bytes.contains 10 = false → ∀ e, r.inner.ending = some e → r.untilLf n acc = .err e)
  | 0, r, acc, h => by unfold BufRead.need at h; split at h <;> omega
  | n + 1, ⟨buf, ⟨calls, ending⟩⟩, acc, h => by
    cases buf with
    | nil =>
      cases calls with
      | nil =>
        cases ending with
        | none =>
          refine ⟨fun hc => by simp [BufRead.abs, delivered] at hc, fun _ _ => ⟨⟨[], ⟨[], none⟩⟩, ?_, rfl⟩, fun _ e he => (nomatch he)⟩
          simp [BufRead.untilLf, BufRead.fill, BufRead.abs, delivered]
        | some e =>
          refine ⟨fun hc => by simp [BufRead.abs, delivered] at hc, fun _ he => (nomatch he), fun _ e' he => ?_⟩
          cases he
          simp [BufRead.untilLf, BufRead.fill]
      | cons c cs =>
        cases c with
        | interrupted t =>
          have ih := untilLf_abs n ⟨[], ⟨cs, ending⟩⟩ acc (by simp [BufRead.need] at h ⊢; omega)
          have e1 : (BufRead.mk [] ⟨.interrupted t :: cs, ending⟩).untilLf (n + 1) acc = (BufRead.mk [] ⟨cs, ending⟩).untilLf n acc := by
            simp [BufRead.untilLf, BufRead.fill]
          rw [e1]
          exact ih
        | data b bs =>
          by_cases hc : (b :: bs).contains 10 = true
          · have e1 : (BufRead.mk [] ⟨.data b bs :: cs, ending⟩).untilLf (n + 1) acc =
                .ok (acc ++ ((b :: bs).takeWhile (· ≠ 10) ++ [10]), ⟨((b :: bs).dropWhile (· ≠ 10)).drop 1, ⟨cs, ending⟩⟩) := by
              simp only [BufRead.untilLf, BufRead.fill, List.isEmpty_nil, if_true, hc]
            obtain ⟨h1, h2, h3⟩ := contains_append_left (b := delivered cs) hc
            have e2 : (BufRead.mk [] ⟨.data b bs :: cs, ending⟩).abs = ⟨(b :: bs) ++ delivered cs, ending⟩ := rfl
            rw [e1, e2]
            refine ⟨fun _ => ⟨_, by rw [h2], by simp only [BufRead.abs]; rw [h3]⟩, fun h => ?_, fun h => ?_⟩
            · rw [h1] at h; cases h
            · rw [h1] at h; cases h
          · have hc' : (b :: bs).contains 10 = false := by simpa using hc
            have ih := untilLf_abs n ⟨[], ⟨cs, ending⟩⟩ (acc ++ (b :: bs)) (by simp [BufRead.need] at h ⊢; omega)
            have e1 : (BufRead.mk [] ⟨.data b bs :: cs, ending⟩).untilLf (n + 1) acc =
                (BufRead.mk [] ⟨cs, ending⟩).untilLf n (acc ++ (b :: bs)) := by
              simp only [BufRead.untilLf, BufRead.fill, List.isEmpty_nil, if_true, hc', Bool.false_eq_true, if_false, List.isEmpty_cons]
            obtain ⟨h1, h2, h3⟩ := contains_append_right (b := delivered cs) hc'
            have e2 : (BufRead.mk [] ⟨.data b bs :: cs, ending⟩).abs = ⟨(b :: bs) ++ delivered cs, ending⟩ := rfl
            have e3 : (BufRead.mk [] ⟨cs, ending⟩).abs = ⟨delivered cs, ending⟩ := rfl
            rw [e1, e2]
            rw [e3] at ih
            dsimp only at ih ⊢
            rw [h1, h2, h3]
            simp only [List.append_assoc] at ih ⊢
            exact ih
    | cons b bs =>
      by_cases hc : (b :: bs).contains 10 = true
      · have e1 : (BufRead.mk (b :: bs) ⟨calls, ending⟩).untilLf (n + 1) acc =
            .ok (acc ++ ((b :: bs).takeWhile (· ≠ 10) ++ [10]), ⟨((b :: bs).dropWhile (· ≠ 10)).drop 1, ⟨calls, ending⟩⟩) := by
          simp only [BufRead.untilLf, BufRead.fill, List.isEmpty_cons, Bool.false_eq_true, if_false, hc, if_true]
        obtain ⟨h1, h2, h3⟩ := contains_append_left (b := delivered calls) hc
        have e2 : (BufRead.mk (b :: bs) ⟨calls, ending⟩).abs = ⟨(b :: bs) ++ delivered calls, ending⟩ := rfl
        rw [e1, e2]
        refine ⟨fun _ => ⟨_, by rw [h2], by simp only [BufRead.abs]; rw [h3]⟩, fun h => ?_, fun h => ?_⟩
        · rw [h1] at h; cases h
        · rw [h1] at h; cases h
      · have hc' : (b :: bs).contains 10 = false := by simpa using hc
        have ih := untilLf_abs n ⟨[], ⟨calls, ending⟩⟩ (acc ++ (b :: bs)) (by simp [BufRead.need] at h ⊢; omega)
        have e1 : (BufRead.mk (b :: bs) ⟨calls, ending⟩).untilLf (n + 1) acc =
            (BufRead.mk [] ⟨calls, ending⟩).untilLf n (acc ++ (b :: bs)) := by
          simp only [BufRead.untilLf, BufRead.fill, List.isEmpty_cons, Bool.false_eq_true, if_false, hc']
        obtain ⟨h1, h2, h3⟩ := contains_append_right (b := delivered calls) hc'
        have e2 : (BufRead.mk (b :: bs) ⟨calls, ending⟩).abs = ⟨(b :: bs) ++ delivered calls, ending⟩ := rfl
        have e3 : (BufRead.mk [] ⟨calls, ending⟩).abs = ⟨delivered calls, ending⟩ := rfl
        rw [e1, e2]
        rw [e3] at ih
        dsimp only at ih ⊢
        rw [h1, h2, h3]
        simp only [List.append_assoc] at ih ⊢
        exact ih

theorem readLine_abs (r : BufRead) : (∃ s r', r.readLine = .ok (s, r') ∧ readLine r.abs = .ok (s, r'.abs)) ∨
    (∃ e, r.readLine = .err e ∧ readLine r.abs = .err e) := by
  obtain ⟨h1, h2, h3⟩ := untilLf_abs (r.inner.calls.length + 2) r [] (by unfold BufRead.need; split <;> omega)
  have hf : r.abs.failure = r.inner.ending := rfl
  by_cases hc : r.abs.bytes.contains 10 = true
  · obtain ⟨r', e1, e2⟩ := h1 hc
    unfold BufRead.readLine readLine
    rw [e1, if_pos hc, List.nil_append]
    cases hu : fromUtf8 (r.abs.bytes.takeWhile (· ≠ 10) ++ [10]) with
    | none => exact .inr ⟨utf8Error, by simp only [hu], by simp only [hu]⟩
    | some s => exact .inl ⟨s, r', by simp only [hu], by simp only [hu, hf, e2]⟩
  · have hc' : r.abs.bytes.contains 10 = false := by simpa using hc
    cases he : r.inner.ending with
    | none =>
      obtain ⟨r', e1, e2⟩ := h2 hc' he
      unfold BufRead.readLine readLine
      rw [e1, if_neg hc, List.nil_append, hf, he]
      cases hu : fromUtf8 r.abs.bytes with
      | none => exact .inr ⟨utf8Error, by simp only [hu], by simp only [hu]⟩
      | some s => exact .inl ⟨s, r', by simp only [hu], by simp only [hu, e2]⟩
    | some e =>
      refine .inr ⟨e, ?_, ?_⟩
      · unfold BufRead.readLine; rw [h3 hc' e he]
      · unfold readLine; rw [if_neg hc, hf, he]

theorem readToEnd_delivered (ending : Option Str) : ∀ (cs : List ReadCall) (acc : List UInt8),
    readToEnd ending cs acc = match ending with | none => .ok (acc ++ delivered cs) | some e => .err e
  | [], acc => by cases ending <;> simp [readToEnd, delivered]
  | .data b bs :: cs, acc => by rw [readToEnd, readToEnd_delivered ending cs]; cases ending <;> simp [delivered]
  | .interrupted _ :: cs, acc => by rw [readToEnd, readToEnd_delivered ending cs]; cases ending <;> simp [delivered]

theorem readRest_abs (r : BufRead) : r.readRest = readRest r.abs := by
  unfold BufRead.readRest readRest BufRead.abs
  rw [readToEnd_delivered]
  cases r.inner.ending <;> rfl

theorem readHeaders_abs : ∀ (n : Nat) (r : BufRead), (∃ hs r', r.readHeaders n = .ok (hs, r') ∧ readHeaders n r.abs = .ok (hs, r'.abs)) ∨
    (∃ e, r.readHeaders n = .err e ∧ readHeaders n r.abs = .err e) ∨ (r.readHeaders n = .hang ∧ readHeaders n r.abs = .hang)
  | 0, r => .inr (.inr ⟨rfl, rfl⟩)
  | n + 1, r => by
    unfold BufRead.readHeaders readHeaders
    rcases readLine_abs r with ⟨s, r1, e1, e2⟩ | ⟨e, e1, e2⟩
    · rw [e1, e2]
      simp only [bind, Res.bind]
      by_cases hs : (trim s).isEmpty = true
      · rw [if_pos hs, if_pos hs]
        exact .inl ⟨[], r1, rfl, rfl⟩
      · rw [if_neg hs, if_neg hs]
        rcases readHeaders_abs n r1 with ⟨hs', r2, e3, e4⟩ | ⟨e, e3, e4⟩ | ⟨e3, e4⟩
        · rw [e3, e4]
          cases hh : respHeaderOf s with
          | none => exact .inl ⟨hs', r2, by simp only [hh]; rfl, by simp only [hh]; rfl⟩
          | some x => exact .inl ⟨x :: hs', r2, by simp only [hh]; rfl, by simp only [hh]; rfl⟩
        · rw [e3, e4]; exact .inr (.inl ⟨e, rfl, rfl⟩)
        · rw [e3, e4]; exact .inr (.inr ⟨rfl, rfl⟩)
    · rw [e1, e2]; exact .inr (.inl ⟨e, rfl, rfl⟩)

/-- The buffered response reader on a filled reader. -/
theorem receive_filled (r : BufRead) : ((do
      let (line, r) ← r.readLine
      let ws := splitWs line
      let (headers, r) ← r.readHeaders (r.size + 1)
      let body ← r.readRest
      pure ⟨parseText ws[0]?, parseStatus ws[1]?, parseText ws[2]?, headers, body⟩ : Res Response)) = Response.read r.abs := by
  unfold Response.read
  rcases readLine_abs r with ⟨s, r1, e1, e2⟩ | ⟨e, e1, e2⟩
  · rw [e1, e2]
    simp only [bind, Res.bind]
    rw [size_abs]
    rcases readHeaders_abs (r1.abs.bytes.length + 1) r1 with ⟨hs', r2, e3, e4⟩ | ⟨e, e3, e4⟩ | ⟨e3, e4⟩
    · rw [e3, e4]; simp only [readRest_abs]
    · rw [e3, e4]
    · rw [e3, e4]
  · rw [e1, e2]; rfl

theorem response_read_failed (e : Str) : Response.read ⟨[], some e⟩ = .err e := rfl

/-- Reading a response call by call gives what reading the whole byte sequence gives. -/
theorem receive_incoming (inner : Reads) : Response.receive inner =
    (Response.read inner.incoming, !(inner.incoming.bytes.isEmpty && inner.incoming.failure.isSome)) := by
  obtain ⟨calls, ending⟩ := inner
  unfold Response.receive
  cases calls with
  | nil =>
    cases ending with
    | none =>
      have e1 : (BufRead.mk [] ⟨[], none⟩).fill = .ok ⟨[], ⟨[], none⟩⟩ := rfl
      rw [e1]; dsimp only
      rw [receive_filled]; rfl
    | some e => rfl
  | cons c cs =>
    cases c with
    | interrupted t => rfl
    | data b bs =>
      have e1 : (BufRead.mk [] ⟨.data b bs :: cs, ending⟩).fill = .ok ⟨b :: bs, ⟨cs, ending⟩⟩ := rfl
      rw [e1]; dsimp only
      rw [receive_filled]; rfl

end Am
