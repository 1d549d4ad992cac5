import Verif.Props.Io
import Verif.Props.Running
import Verif.Proofs.FloatShow
/-! # Names of files (C50) and texts of write errors (C68), to the last character -/
set_option linter.unusedSimpArgs false
set_option linter.unusedSectionVars false
namespace Am
open Spec

/-- C50: the name of the record file of a thread is the pod's name and the number of the thread with at least six digits, and no zeros in front beyond these. -/
theorem c50_file_name (pod : Str) (i : Nat) : ∃ s, recordFile pod i = pod ++ s ∧ (∀ c ∈ s, isDigit c = true) ∧ decimal s = i ∧ 6 ≤ s.length ∧
    (s.length = 6 ∨ 10 ^ (s.length - 1) ≤ i) := by
  obtain ⟨h1, h2, h3⟩ := F64.natStr_bounds i
  refine ⟨pad6 i, rfl, ?_, ?_, ?_, ?_⟩
  · intro c hc
    rcases List.mem_append.1 hc with h | h
    · rw [(List.mem_replicate.1 h).2]; decide
    · exact natStr_digits i c h
  · unfold pad6; rw [decimal_zeros, decimal_natStr]
  · unfold pad6; rw [List.length_append, List.length_replicate]; omega
  · unfold pad6; rw [List.length_append, List.length_replicate]
    by_cases h : (natStr i).length ≤ 6
    · left; omega
    · right
      have : i ≠ 0 := by
        rintro rfl
        have : (natStr 0).length = 1 := by decide
        omega
      have := h2 this
      rw [show 6 - (natStr i).length + (natStr i).length - 1 = (natStr i).length - 1 by omega]
      exact this

/-- Concrete case: thread 1234567. -/
example : recordFile c!"p" 1234567 = c!"p1234567" ∧ recordFile c!"p" 7 = c!"p000007" := by decide +kernel

/-- The text is that of a call that failed, or the given one after a call that took nothing. -/
def Explains (cs : List WriteCall) (zero e : Str) : Prop := .failed e ∈ cs ∨ .accept 0 ∈ cs ∧ e = zero

theorem writeLoop_explains (zero : Str) : ∀ (cs : List WriteCall) (got bs : List UInt8),
    (∀ c ∈ (writeLoop zero cs got bs).2.2.calls, c ∈ cs) ∧ ∀ e, (writeLoop zero cs got bs).1 = some e → Explains cs zero e := by
  intro cs
  induction cs with
  | nil => intro got bs; cases bs <;> simp [writeLoop]
  | cons c cs ih =>
    intro got bs
    cases bs with
    | nil => simp [writeLoop]
    | cons b bs =>
      have mono : ∀ got bs, (∀ x ∈ (writeLoop zero cs got bs).2.2.calls, x ∈ c :: cs) ∧ ∀ e, (writeLoop zero cs got bs).1 = some e → Explains (c :: cs) zero e := fun got bs =>
        ⟨fun x hx => List.mem_cons_of_mem _ ((ih got bs).1 x hx), fun e he => ((ih got bs).2 e he).imp (List.mem_cons_of_mem _) fun h => ⟨List.mem_cons_of_mem _ h.1, h.2⟩⟩
      cases c with
      | accept n =>
        cases n with
        | zero =>
          simp only [writeLoop, Explains]
          refine ⟨fun x hx => List.mem_cons_of_mem _ hx, fun e he => .inr ⟨by simp, (Option.some.inj he).symm⟩⟩
        | succ n => rw [writeLoop]; exact mono _ _
      | interrupted => rw [writeLoop]; exact mono _ _
      | failed e =>
        simp only [writeLoop, Explains]
        exact ⟨fun x hx => List.mem_cons_of_mem _ hx, fun e he => .inl (by rw [Option.some.inj he]; simp)⟩

/-- One of the two texts of std for a write that took nothing, or the text of the call that failed. -/
def WriteText (cs : List WriteCall) (e : Str) : Prop :=
  .failed e ∈ cs ∨ .accept 0 ∈ cs ∧ (e = c!"failed to write whole buffer" ∨ e = c!"failed to write the buffered data")

theorem Explains.whole {cs : List WriteCall} {e : Str} (h : Explains cs writeAllZero e) : WriteText cs e := h.imp id fun h => ⟨h.1, .inl h.2⟩
theorem Explains.buffered {cs : List WriteCall} {e : Str} (h : Explains cs flushZero e) : WriteText cs e := h.imp id fun h => ⟨h.1, .inr h.2⟩
theorem WriteText.mono {cs cs' : List WriteCall} {e : Str} (h : WriteText cs e) (hs : ∀ c ∈ cs, c ∈ cs') : WriteText cs' e :=
  h.imp (hs _) fun h => ⟨hs _ h.1, h.2⟩

/-- An operation that leaves a rest of the calls and explains its error. -/
def Explained (w : BufWrite) (r : Option Str × BufWrite) : Prop :=
  (∀ c ∈ r.2.sink.calls, c ∈ w.sink.calls) ∧ ∀ e, r.1 = some e → WriteText w.sink.calls e

theorem flushBuf_explained (w : BufWrite) : Explained w w.flushBuf := by
  obtain ⟨h1, h2⟩ := writeLoop_explains flushZero w.sink.calls w.sink.got w.buf
  exact ⟨h1, fun e he => (h2 e he).buffered⟩

theorem writeAll_explained (w : BufWrite) (piece : List UInt8) : Explained w (w.writeAll piece) := by
  unfold BufWrite.writeAll
  split
  · exact ⟨fun _ h => h, fun e he => by cases he⟩
  · have hst : Explained w (if w.cap - w.buf.length < piece.length then w.flushBuf else (none, w)) := by
      split
      · exact flushBuf_explained w
      · exact ⟨fun _ h => h, fun e he => by cases he⟩
    generalize (if w.cap - w.buf.length < piece.length then w.flushBuf else (none, w)) = r at hst
    obtain ⟨e, w1⟩ := r
    cases e with
    | some e => exact hst
    | none =>
      dsimp only
      split
      · obtain ⟨h1, h2⟩ := writeLoop_explains writeAllZero w1.sink.calls w1.sink.got piece
        exact ⟨fun c hc => hst.1 c (h1 c hc), fun e he => (h2 e he).whole.mono hst.1⟩
      · exact ⟨hst.1, fun e he => by cases he⟩

theorem writeMany_explained : ∀ (ps : List (List UInt8)) (w : BufWrite), Explained w (w.writeMany ps)
  | [], w => ⟨fun _ h => h, fun e he => by cases he⟩
  | p :: ps, w => by
    have h1 := writeAll_explained w p
    unfold BufWrite.writeMany
    cases he : w.writeAll p with
    | mk e w1 =>
      rw [he] at h1
      cases e with
      | none => have h2 := writeMany_explained ps w1; exact ⟨fun c hc => h1.1 c (h2.1 c hc), fun e he => (h2.2 e he).mono h1.1⟩
      | some e => exact h1

/-- C68: the text of a failed write is the one of the call that failed, or says, in the words of std, that a call took nothing, or is that of the body's reader. -/
theorem c68_error_text (r : Request) (c : Content) (copy : Copy) (flushed : Bool) (cap : Nat) (cs : List WriteCall) (e : Str)
    (h : (r.writeTo c copy flushed cap ⟨cs, []⟩).1 = some (.writeFailed e)) : WriteText cs e ∨ copy.broken = some e := by
  have h1 := writeMany_explained r.pieces (BufWrite.mk cap [] ⟨cs, []⟩)
  unfold Request.writeTo at h
  dsimp only at h
  generalize (BufWrite.mk cap [] ⟨cs, []⟩).writeMany r.pieces = x at h h1
  obtain ⟨o, w⟩ := x
  cases o with
  | some e' =>
    simp only [Option.some.injEq, HttpError.writeFailed.injEq] at h
    subst h
    exact .inl (h1.2 _ rfl)
  | none =>
    dsimp only at h
    have h2 : (∀ x, (c.writeTo copy w).1 = some x → WriteText w.sink.calls x ∨ copy.broken = some x) := by
      intro x hx
      cases c with
      | empty => cases hx
      | byte bs => exact .inl ((writeAll_explained w bs).2 x hx)
      | multipart bs =>
        have h3 := writeMany_explained copy.copied w
        unfold Content.writeTo at hx
        dsimp only at hx
        generalize w.writeMany copy.copied = y at hx h3
        obtain ⟨o, w1⟩ := y
        cases o with
        | some e' => exact .inl (h3.2 x hx)
        | none => exact .inr hx
    generalize c.writeTo copy w = y at h h2
    obtain ⟨o, w1⟩ := y
    cases o with
    | some e' =>
      simp only [Option.some.injEq, HttpError.writeFailed.injEq] at h
      subst h
      exact (h2 _ rfl).imp (fun h => h.mono h1.1) id
    | none =>
      dsimp only at h
      generalize w1.flushBuf = z at h
      obtain ⟨o, w2⟩ := z
      cases o with
      | some e' => simp at h
      | none => dsimp only at h; split at h <;> simp at h

/-- Concrete case: the buffer of 8 bytes has to be flushed for the second piece, and the connection takes nothing; without a buffer the first piece fails. -/
example : (smallRequest.writeTo (.byte (utf8 c!"hello")) ⟨[], none⟩ true 8 ⟨[.accept 0], []⟩).1 = some (.writeFailed c!"failed to write the buffered data") ∧
    (smallRequest.writeTo (.byte (utf8 c!"hello")) ⟨[], none⟩ true 0 ⟨[.accept 0], []⟩).1 = some (.writeFailed c!"failed to write whole buffer") := by decide +kernel

end Am
