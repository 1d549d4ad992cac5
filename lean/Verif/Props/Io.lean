import Verif.Spec.Io
import Verif.Spec.Framing
import Verif.Proofs.Io
import Verif.Props.Connecting
import Verif.Props.Framing
/-! # Properties C67-C70: single calls on the connection -/
set_option linter.unusedSimpArgs false
namespace Am
open Spec

/-! ## C67 -/

theorem delivers_iff {cs : List ReadCall} {bytes : List UInt8} : Delivers cs bytes ↔ delivered cs = bytes := by
  constructor
  · intro h
    induction h with
    | done => rfl
    | data b bs cs rest _ ih => rw [delivered, ih]
    | again t cs bytes _ ih => rw [delivered, ih]
  · rintro rfl
    induction cs with
    | nil => exact .done
    | cons c cs ih =>
      cases c with
      | data b bs => exact .data b bs cs _ ih
      | interrupted t => exact .again t cs _ ih

/-- C67, as stated: the response depends only on the bytes received and on how the connection ended, not on how they were cut into pieces. -/
def PiecesDontMatter : Prop := ∀ (a b : List ReadCall) (bytes : List UInt8) (ending : Option Str), Delivers a bytes → Delivers b bytes →
  (Response.receive ⟨a, ending⟩).1 = (Response.receive ⟨b, ending⟩).1

/-- C67: the response read call by call is the response read from the whole byte sequence (so C41-C43 and C62 hold for it). -/
theorem c67_whole (cs : List ReadCall) (bytes : List UInt8) (ending : Option Str) (h : Delivers cs bytes) (hs : StartsAtOnce cs) :
    (Response.receive ⟨cs, ending⟩).1 = Response.read ⟨bytes, ending⟩ := by
  rw [receive_incoming]
  cases cs with
  | nil => rw [delivers_iff] at h; subst h; rfl
  | cons c cs =>
    cases c with
    | interrupted t => exact absurd rfl (hs t cs)
    | data b bs => rw [delivers_iff] at h; subst h; rfl

/-- C67, partial: two deliveries of the same bytes give the same response if neither is interrupted (by a signal) before its first byte.
Missing: interruptions before the first byte, which are reported as failures (`c67_interrupted`). -/
theorem c67_partial (a b : List ReadCall) (bytes : List UInt8) (ending : Option Str) (ha : Delivers a bytes) (hb : Delivers b bytes)
    (sa : StartsAtOnce a) (sb : StartsAtOnce b) : (Response.receive ⟨a, ending⟩).1 = (Response.receive ⟨b, ending⟩).1 := by
  rw [c67_whole a bytes ending ha sa, c67_whole b bytes ending hb sb]

/-- C67: an interruption before the first byte fails the exchange whatever would come after it. -/
theorem c67_interrupted (t : Str) (cs : List ReadCall) (ending : Option Str) :
    Response.receive ⟨.interrupted t :: cs, ending⟩ = (.err t, false) := rfl

/-- C67, exactly when the pieces do not matter: the first call is not interrupted (or reading the whole would fail with the same text). -/
theorem c67_exact_partial (cs : List ReadCall) (bytes : List UInt8) (ending : Option Str) (h : Delivers cs bytes) :
    (Response.receive ⟨cs, ending⟩).1 = Response.read ⟨bytes, ending⟩ ↔
      StartsAtOnce cs ∨ ∃ t rest, cs = .interrupted t :: rest ∧ Response.read ⟨bytes, ending⟩ = .err t := by
  constructor
  · intro he
    by_cases hs : StartsAtOnce cs
    · exact .inl hs
    · cases cs with
      | nil => exact absurd (fun _ _ h => nomatch h) hs
      | cons c cs =>
        cases c with
        | data b bs => exact absurd (fun _ _ h => nomatch h) hs
        | interrupted t => exact .inr ⟨t, cs, rfl, by rw [← he, c67_interrupted]⟩
  · rintro (hs | ⟨t, rest, rfl, he⟩)
    · exact c67_whole cs bytes ending h hs
    · rw [c67_interrupted, he]

/-- A response in one piece, and in three with interruptions between. -/
def wholePieces : List ReadCall := [.data 72 (utf8 c!"TTP/1.1 204 No\r\nA: b\r\n\r\nxyz")]
/-- See `wholePieces`. -/
def threePieces : List ReadCall := [.data 72 (utf8 c!"TTP/1.1 204 No\r"), .interrupted c!"i", .data 10 (utf8 c!"A: b\r\n"), .data 13 (utf8 c!"\nxyz"), .interrupted c!"i"]

/-- Concrete case for `c67_partial`. -/
example : (∃ bytes, Delivers wholePieces bytes ∧ Delivers threePieces bytes) ∧ StartsAtOnce wholePieces ∧ StartsAtOnce threePieces ∧
    (Response.receive ⟨threePieces, none⟩).1 = .ok ⟨c!"HTTP/1.1", 204, c!"No", [⟨c!"A", c!"b"⟩], c!"xyz"⟩ := by
  refine ⟨⟨_, delivers_iff.2 rfl, delivers_iff.2 (by decide)⟩, (fun _ _ h => by cases h), (fun _ _ h => by cases h), ?_⟩
  decide +kernel

/-- C67 is false as stated: an interrupted first call fails the exchange. -/
theorem c67_false : ¬ PiecesDontMatter := by
  intro h
  have h1 := h (.interrupted c!"Interrupted system call" :: wholePieces) wholePieces (delivered wholePieces) none
    (delivers_iff.2 rfl) (delivers_iff.2 rfl)
  rw [c67_interrupted, c67_whole wholePieces _ none (delivers_iff.2 rfl) (fun _ _ h => by cases h)] at h1
  obtain ⟨r, hr⟩ := (c41_valid ⟨delivered wholePieces, none⟩).1.2 ⟨rfl, c!"HTTP/1.1 204 No\r\nA: b\r\n\r\nxyz", by decide +kernel⟩
  rw [hr] at h1
  cases h1

/-! ## C70 -/

/-- C70, as stated: a response whose body is shorter than its head says (RFC 9112, section 6.3) is reported as an error. -/
def CutsReported : Prop := ∀ (cipher : Bool) (s line rest body : Str) (hs : List Header) (code : Nat) (cs : List ReadCall) (ending : ReadEnd),
  FirstLine s line rest → HeaderText rest hs body → StatusOf (splitWs line)[1]? code → Delivers cs (utf8 s) → StartsAtOnce cs →
  bodyBy (responseFraming code (hs.map fun h => (h.name, h.value))) (utf8 body) = none → ∃ e, (Response.receive ⟨cs, streamEnd cipher ending⟩).1 = .err e

theorem streamEnd_iff (cipher : Bool) (ending : ReadEnd) : (∃ e, streamEnd cipher ending = some e) ↔ EndsBadly cipher ending := by
  constructor
  · rintro ⟨e, h⟩
    cases ending with
    | eof => cases h
    | failed t => exact .failed _ _
    | aborted t close =>
      cases cipher with
      | false => exact .aborted _ _
      | true =>
        cases close with
        | none => cases h
        | some e' => exact .close _ _
    | cut t =>
      cases cipher with
      | false => exact .cut _
      | true => cases h
  · intro h
    cases h with
    | failed _ t => exact ⟨t, by cases cipher <;> rfl⟩
    | aborted t close => exact ⟨t, rfl⟩
    | cut t => exact ⟨t, rfl⟩
    | close t e => exact ⟨e, rfl⟩

/-- C70, partial: a connection that ends with an error is reported. Missing: connections that end in the middle of a response without one. -/
theorem c70_partial (cipher : Bool) (cs : List ReadCall) (ending : ReadEnd) (h : EndsBadly cipher ending) :
    ∃ e', (Response.receive ⟨cs, streamEnd cipher ending⟩).1 = .err e' := by
  obtain ⟨e, h⟩ := (streamEnd_iff cipher ending).2 h
  rw [h]
  have hr : ∃ bs f, (Reads.mk cs (some e)).incoming = ⟨bs, some f⟩ := by
    unfold Reads.incoming
    split
    · exact ⟨_, _, rfl⟩
    · exact ⟨_, _, rfl⟩
  obtain ⟨bs, f, hr⟩ := hr
  rw [receive_incoming, hr]
  rcases (c41_valid ⟨bs, some f⟩).2 with ⟨r, h⟩ | h
  · have := ((c41_valid ⟨bs, some f⟩).1.1 ⟨r, h⟩).1
    cases this
  · exact h

/-- Concrete cases for `c70_partial`: a reset connection, and a plain connection cut off. -/
example : EndsBadly true (.failed c!"reset") ∧ EndsBadly false (.cut c!"eof") ∧ EndsBadly true (.aborted c!"x" (some c!"y")) :=
  ⟨.failed _ _, .cut _, .close _ _⟩

/-- C70: exactly which ends are reported, when the first call is not interrupted: errors, and bytes that are no text. What the response
announces plays no part. -/
theorem c70_exact_partial (cipher : Bool) (bytes : List UInt8) (cs : List ReadCall) (ending : ReadEnd) (h : Delivers cs bytes) (hs : StartsAtOnce cs) :
    (∃ r, (Response.receive ⟨cs, streamEnd cipher ending⟩).1 = .ok r) ↔ ¬ EndsBadly cipher ending ∧ ∃ s, bytes = utf8 s := by
  constructor
  · rintro ⟨r, hr⟩
    have hn : ¬ EndsBadly cipher ending := by
      intro hb
      obtain ⟨e, he⟩ := c70_partial cipher cs ending hb
      rw [he] at hr
      cases hr
    refine ⟨hn, ?_⟩
    cases he : streamEnd cipher ending with
    | some e => exact absurd ((streamEnd_iff _ _).1 ⟨e, he⟩) hn
    | none =>
      rw [he, c67_whole cs bytes none h hs] at hr
      exact ((c41_valid ⟨bytes, none⟩).1.1 ⟨r, hr⟩).2
  · rintro ⟨hn, s, rfl⟩
    cases he : streamEnd cipher ending with
    | some e => exact absurd ((streamEnd_iff _ _).1 ⟨e, he⟩) hn
    | none =>
      rw [c67_whole cs (utf8 s) none h hs]
      exact (c41_valid ⟨utf8 s, none⟩).1.2 ⟨rfl, s, rfl⟩

/-- C70: a connection closed between two characters of a response is never reported, and over TLS neither is one that breaks off. -/
theorem c70_never (cipher : Bool) (s : Str) (cs : List ReadCall) (ending : ReadEnd) (h : Delivers cs (utf8 s)) (hs : StartsAtOnce cs)
    (he : ending = .eof ∨ (cipher = true ∧ ((∃ t, ending = .cut t) ∨ ∃ t, ending = .aborted t none))) :
    ∃ r, (Response.receive ⟨cs, streamEnd cipher ending⟩).1 = .ok r := by
  have hn : streamEnd cipher ending = none := by
    rcases he with rfl | ⟨rfl, ⟨t, rfl⟩ | ⟨t, rfl⟩⟩ <;> rfl
  rw [hn, c67_whole cs (utf8 s) none h hs]
  exact (c41_valid ⟨utf8 s, none⟩).1.2 ⟨rfl, s, rfl⟩

/-- C70 is false as stated: a response of 2 bytes where 10 are announced, cut off over TLS, is a success. -/
theorem c70_false : ¬ CutsReported := by
  intro h
  have hd : Delivers [.data 72 (utf8 c!"TTP/1.1 200 OK\r\nContent-Length: 10\r\n\r\nab")] (utf8 c!"HTTP/1.1 200 OK\r\nContent-Length: 10\r\n\r\nab") :=
    delivers_iff.2 (by decide +kernel)
  have hs : StartsAtOnce [.data 72 (utf8 c!"TTP/1.1 200 OK\r\nContent-Length: 10\r\n\r\nab")] := fun _ _ h => by cases h
  have ht : HeaderText c!"Content-Length: 10\r\n\r\nab" [⟨c!"Content-Length", c!"10"⟩] c!"ab" := by
    refine .field _ c!"Content-Length" c!" 10\r" _ _ c!"\r\nab" _ _ (.more c!"Content-Length: 10\r" _ (by decide)) (by decide) ?_ ?_
      (.blank _ c!"\r" _ (.more c!"\r" _ (by decide)) (by decide))
    · have := trim_trims c!"Content-Length"
      rwa [show trim c!"Content-Length" = c!"Content-Length" by decide] at this
    · have := trim_trims c!" 10\r"
      rwa [show trim c!" 10\r" = c!"10" by decide] at this
  obtain ⟨e, h1⟩ := h true _ c!"HTTP/1.1 200 OK\r" c!"Content-Length: 10\r\n\r\nab" c!"ab" _ 200 _ (.cut c!"eof") (.more c!"HTTP/1.1 200 OK\r" _ (by decide)) ht
    (.inl (.digits c!"200" (by decide) (by decide) (by decide))) hd hs (by decide +kernel)
  obtain ⟨r, h2⟩ := c70_never true _ _ (.cut c!"eof") hd hs (.inr ⟨rfl, .inl ⟨_, rfl⟩⟩)
  rw [h1] at h2
  cases h2

/-! ## C68 -/

theorem writeLoop_keeps (zero : Str) : ∀ (cs : List WriteCall) (got bs : List UInt8),
    (writeLoop zero cs got bs).2.2.got ++ (writeLoop zero cs got bs).2.1 = got ++ bs ∧
    ((writeLoop zero cs got bs).1 = none → (writeLoop zero cs got bs).2.1 = []) := by
  intro cs
  induction cs with
  | nil => intro got bs; cases bs <;> simp [writeLoop]
  | cons c cs ih =>
    intro got bs
    cases bs with
    | nil => simp [writeLoop]
    | cons b bs =>
      cases c with
      | accept n =>
        cases n with
        | zero => simp [writeLoop]
        | succ n =>
          rw [writeLoop]
          obtain ⟨h1, h2⟩ := ih (got ++ (b :: bs).take (n + 1)) ((b :: bs).drop (n + 1))
          refine ⟨?_, h2⟩
          rw [h1, List.append_assoc, List.take_append_drop]
      | interrupted => rw [writeLoop]; exact ih got (b :: bs)
      | failed e => simp [writeLoop]

theorem writeLoop_accepts (zero : Str) : ∀ (cs : List WriteCall) (got bs : List UInt8), Accepts cs →
    (writeLoop zero cs got bs).1 = none ∧ Accepts (writeLoop zero cs got bs).2.2.calls := by
  intro cs
  induction cs with
  | nil => intro got bs h; cases bs <;> exact ⟨rfl, h⟩
  | cons c cs ih =>
    intro got bs h
    have ht : Accepts cs := fun c hc => h c (List.mem_cons_of_mem _ hc)
    cases bs with
    | nil => exact ⟨rfl, h⟩
    | cons b bs =>
      rcases h c (List.mem_cons_self ..) with rfl | ⟨n, rfl⟩
      · rw [writeLoop]; exact ih got (b :: bs) ht
      · rw [writeLoop]; exact ih _ _ ht

/-- Everything handed to a buffered writer so far. -/
def BufWrite.total (w : BufWrite) : List UInt8 := w.sink.got ++ w.buf

theorem flushBuf_keeps (w : BufWrite) : w.flushBuf.2.total = w.total ∧ w.flushBuf.2.cap = w.cap ∧
    w.flushBuf.2.buf.length ≤ w.buf.length ∧ (w.flushBuf.1 = none → w.flushBuf.2.buf = []) := by
  obtain ⟨h1, h2⟩ := writeLoop_keeps flushZero w.sink.calls w.sink.got w.buf
  refine ⟨h1, rfl, ?_, h2⟩
  show (writeLoop flushZero w.sink.calls w.sink.got w.buf).2.1.length ≤ w.buf.length
  clear h1 h2
  generalize w.sink.calls = cs, w.sink.got = got, w.buf = bs
  induction cs generalizing got bs with
  | nil => cases bs <;> simp [writeLoop]
  | cons c cs ih =>
    cases bs with
    | nil => simp [writeLoop]
    | cons b bs =>
      cases c with
      | accept n =>
        cases n with
        | zero => simp [writeLoop]
        | succ n =>
          rw [writeLoop]
          refine Nat.le_trans (ih _ _) ?_
          rw [List.length_drop]; omega
      | interrupted => rw [writeLoop]; exact ih _ _
      | failed e => simp [writeLoop]

theorem flushBuf_accepts (w : BufWrite) (h : Accepts w.sink.calls) : w.flushBuf.1 = none ∧ Accepts w.flushBuf.2.sink.calls :=
  writeLoop_accepts flushZero w.sink.calls w.sink.got w.buf h

/-- The buffer holds at most its capacity. -/
def BufWrite.Fit (w : BufWrite) : Prop := w.buf.length ≤ w.cap

/-- What a failed or completed write operation may have done with `piece`. -/
def Wrote (w w' : BufWrite) (piece : List UInt8) (e : Option Str) : Prop :=
  w'.Fit ∧ w'.total <+: w.total ++ piece ∧ (e = none → w'.total = w.total ++ piece) ∧
  (Accepts w.sink.calls → e = none ∧ Accepts w'.sink.calls)

theorem writeAll_wrote (w : BufWrite) (piece : List UInt8) (hf : w.Fit) : Wrote w (w.writeAll piece).2 piece (w.writeAll piece).1 := by
  unfold BufWrite.writeAll
  split
  · rename_i hl
    refine ⟨?_, ?_, ?_, fun h => ⟨rfl, h⟩⟩
    · show (w.buf ++ piece).length ≤ w.cap
      rw [List.length_append]; unfold BufWrite.Fit at hf; omega
    · rw [show (BufWrite.mk w.cap (w.buf ++ piece) w.sink).total = w.total ++ piece from (List.append_assoc ..).symm]
      exact List.prefix_refl _
    · intro _; exact (List.append_assoc ..).symm
  · rename_i hl
    -- the state after the flush, if there is one
    have hst : ∃ e w1, (if w.cap - w.buf.length < piece.length then w.flushBuf else (none, w)) = (e, w1) ∧ w1.Fit ∧ w1.total = w.total ∧ w1.cap = w.cap ∧
        (e = none → w.cap ≤ piece.length → w1.buf = []) ∧ (e = none → piece.length < w.cap → w1.buf.length + piece.length ≤ w.cap) ∧
        (Accepts w.sink.calls → e = none ∧ Accepts w1.sink.calls) := by
      obtain ⟨h1, h2, h3, h4⟩ := flushBuf_keeps w
      unfold BufWrite.Fit at hf
      split
      · refine ⟨w.flushBuf.1, w.flushBuf.2, rfl, ?_, h1, h2, fun he _ => h4 he, fun he hc => ?_, flushBuf_accepts w⟩
        · unfold BufWrite.Fit; rw [h2]; omega
        · rw [h4 he]; simp; omega
      · refine ⟨none, w, rfl, hf, rfl, rfl, fun _ hc => ?_, fun _ hc => by omega, fun h => ⟨rfl, h⟩⟩
        exact List.eq_nil_of_length_eq_zero (by omega)
    obtain ⟨e, w1, he, hf1, ht, hc, hb, hl1, ha⟩ := hst
    rw [he]
    cases e with
    | some e =>
      refine ⟨hf1, ?_, fun h => (by cases h), fun h => ⟨(ha h).1, (ha h).2⟩⟩
      rw [ht]; exact List.prefix_append ..
    | none =>
      dsimp only
      split
      · rename_i hge
        have hbe : w1.buf = [] := hb rfl (hc ▸ hge)
        obtain ⟨h1, h2⟩ := writeLoop_keeps writeAllZero w1.sink.calls w1.sink.got piece
        have ht' : w1.sink.got = w.total := by rw [← ht]; unfold BufWrite.total; rw [hbe, List.append_nil]
        rw [ht'] at h1 h2 ⊢
        refine ⟨hf1, ?_, ?_, fun h => ?_⟩
        · rw [← h1]
          show (writeLoop writeAllZero w1.sink.calls w.total piece).2.2.got ++ w1.buf <+: _
          rw [hbe, List.append_nil]
          exact List.prefix_append ..
        · intro hn
          rw [h2 hn, List.append_nil] at h1
          rw [← h1]
          show (writeLoop writeAllZero w1.sink.calls w.total piece).2.2.got ++ w1.buf = _
          rw [hbe, List.append_nil]
        · exact writeLoop_accepts writeAllZero _ _ _ (ha h).2
      · rename_i hlt
        refine ⟨?_, ?_, ?_, fun h => ⟨rfl, (ha h).2⟩⟩
        · show (w1.buf ++ piece).length ≤ w1.cap
          rw [List.length_append, hc]; exact hl1 rfl (by rw [hc] at hlt; omega)
        · rw [show (BufWrite.mk w1.cap (w1.buf ++ piece) w1.sink).total = w1.total ++ piece from (List.append_assoc ..).symm, ht]
          exact List.prefix_refl _
        · intro _
          rw [← ht]
          exact (List.append_assoc ..).symm

theorem Wrote.trans {w w1 w2 : BufWrite} {p q : List UInt8} {e : Option Str} (h1 : Wrote w w1 p none) (h2 : Wrote w1 w2 q e) : Wrote w w2 (p ++ q) e := by
  obtain ⟨f1, p1, q1, a1⟩ := h1
  obtain ⟨f2, p2, q2, a2⟩ := h2
  rw [q1 rfl, List.append_assoc] at p2 q2
  exact ⟨f2, p2, q2, fun h => a2 (a1 h).2⟩

theorem Wrote.stop {w w1 : BufWrite} {p q : List UInt8} {e : Str} (h1 : Wrote w w1 p (some e)) : Wrote w w1 (p ++ q) (some e) := by
  obtain ⟨f1, p1, q1, a1⟩ := h1
  refine ⟨f1, ?_, fun h => (by cases h), a1⟩
  rw [← List.append_assoc]
  exact p1.trans (List.prefix_append ..)

theorem writeMany_wrote : ∀ (ps : List (List UInt8)) (w : BufWrite), w.Fit → Wrote w (w.writeMany ps).2 ps.flatten (w.writeMany ps).1
  | [], w, hf => ⟨hf, by simp [BufWrite.writeMany, BufWrite.total], fun _ => by simp [BufWrite.writeMany], fun h => ⟨rfl, h⟩⟩
  | p :: ps, w, hf => by
    have h1 := writeAll_wrote w p hf
    unfold BufWrite.writeMany
    rw [List.flatten_cons]
    cases he : w.writeAll p with
    | mk e w1 =>
      rw [he] at h1
      cases e with
      | none => exact h1.trans (writeMany_wrote ps w1 h1.1)
      | some e => exact h1.stop

theorem content_wrote (c : Content) (copy : Copy) (w : BufWrite) (hf : w.Fit) (hc : CopyOf c copy) :
    (c.writeTo copy w).2.Fit ∧ (c.writeTo copy w).2.total <+: w.total ++ c.bytes ∧ ((c.writeTo copy w).1 = none → (c.writeTo copy w).2.total = w.total ++ c.bytes) ∧
    (Accepts w.sink.calls → copy.broken = none → (c.writeTo copy w).1 = none ∧ Accepts (c.writeTo copy w).2.sink.calls) := by
  cases c with
  | empty => exact ⟨hf, by simp [Content.writeTo, Content.bytes], fun _ => by simp [Content.writeTo, Content.bytes], fun h _ => ⟨rfl, h⟩⟩
  | byte bs =>
    obtain ⟨h1, h2, h3, h4⟩ := writeAll_wrote w bs hf
    exact ⟨h1, h2, h3, fun h _ => h4 h⟩
  | multipart bs =>
    obtain ⟨hp, hw⟩ := hc
    have h1 := writeMany_wrote copy.copied w hf
    unfold Content.writeTo
    dsimp only
    have hpre : w.total ++ copy.copied.flatten <+: w.total ++ bs := (List.prefix_append_right_inj _).2 hp
    cases he : w.writeMany copy.copied with
    | mk e w1 =>
      rw [he] at h1
      cases e with
      | none =>
        dsimp only
        refine ⟨h1.1, h1.2.1.trans hpre, fun hn => ?_, fun h hb => ⟨hb, (h1.2.2.2 h).2⟩⟩
        rw [h1.2.2.1 rfl, hw hn]
        rfl
      | some e =>
        dsimp only
        exact ⟨h1.1, h1.2.1.trans hpre, fun hn => (by cases hn), fun h _ => ⟨(h1.2.2.2 h).1, (h1.2.2.2 h).2⟩⟩

theorem utf8_flatten : ∀ l : List Str, (l.map utf8).flatten = utf8 l.flatten
  | [] => rfl
  | s :: l => by rw [List.map_cons, List.flatten_cons, List.flatten_cons, utf8_append, utf8_flatten l]

theorem pieces_text (r : Request) (c : Content) : r.pieces.flatten ++ c.bytes = r.wire c := by
  unfold Request.wire Request.line
  congr 1
  have hh : ∀ hs : List Header, (hs.flatMap fun h => [utf8 h.name, utf8 c!": ", utf8 h.value, utf8 c!"\r\n"]).flatten = utf8 (hs.flatMap Header.line) := by
    intro hs
    induction hs with
    | nil => rfl
    | cons h hs ih =>
      rw [List.flatMap_cons, List.flatMap_cons, List.flatten_append, ih, utf8_append]
      simp only [Header.line, utf8_append, List.flatten_cons, List.flatten_nil, List.append_nil, List.append_assoc]
  unfold Request.pieces
  rw [List.flatten_append, List.flatten_append, hh]
  simp only [utf8_append, List.flatten_cons, List.flatten_nil, List.append_nil, List.append_assoc]

theorem requestBytes_wire (r : Request) (c : Content) : requestBytes r c.bytes = r.wire c := by
  rw [← pieces_text]
  unfold requestBytes
  congr 1
  have hh : ∀ hs : List Header, (hs.flatMap fun h => [utf8 h.name, utf8 c!": ", utf8 h.value, utf8 c!"\r\n"]).flatten =
      hs.flatMap fun h => utf8 h.name ++ [58, 32] ++ utf8 h.value ++ [13, 10] := by
    intro hs
    induction hs with
    | nil => rfl
    | cons h hs ih =>
      rw [List.flatMap_cons, List.flatMap_cons, List.flatten_append, ih]
      rw [show utf8 c!": " = [58, 32] from by decide, show utf8 c!"\r\n" = [13, 10] from by decide]
      simp only [List.flatten_cons, List.flatten_nil, List.append_nil, List.append_assoc]
  unfold Request.pieces
  rw [List.flatten_append, List.flatten_append, hh]
  rw [show utf8 c!" " = [32] from by decide, show utf8 c!"\r\n" = [13, 10] from by decide]
  simp only [List.flatten_cons, List.flatten_nil, List.append_nil, List.append_assoc, List.cons_append, List.nil_append]

theorem flushed_got (w : BufWrite) (h : w.flushBuf.1 = none) : w.flushBuf.2.sink.got = w.total := by
  obtain ⟨h1, _, _, h4⟩ := flushBuf_keeps w
  rw [← h1]; unfold BufWrite.total; rw [h4 h, List.append_nil]

theorem dropped_prefix (w : BufWrite) : w.flushBuf.2.sink.got <+: w.total := by
  obtain ⟨h1, _, _, _⟩ := flushBuf_keeps w
  rw [← h1]; exact List.prefix_append ..

/-- All of C68 in one statement about `Request.writeTo` on a fresh connection. -/
theorem writeTo_facts (r : Request) (c : Content) (copy : Copy) (flushed : Bool) (cap : Nat) (cs : List WriteCall) (hc : CopyOf c copy) :
    (r.writeTo c copy flushed cap ⟨cs, []⟩).2.got <+: requestBytes r c.bytes ∧
    ((r.writeTo c copy flushed cap ⟨cs, []⟩).1 = none → (r.writeTo c copy flushed cap ⟨cs, []⟩).2.got = requestBytes r c.bytes ∧ flushed = true) ∧
    (Accepts cs → copy.broken = none → flushed = true → (r.writeTo c copy flushed cap ⟨cs, []⟩).1 = none) := by
  have hw0 := writeMany_wrote r.pieces ⟨cap, [], ⟨cs, []⟩⟩ (Nat.zero_le _)
  have htot : (BufWrite.mk cap [] ⟨cs, []⟩).total = [] := rfl
  rw [requestBytes_wire, ← pieces_text]
  unfold Request.writeTo
  cases h1 : (BufWrite.mk cap [] ⟨cs, []⟩).writeMany r.pieces with
  | mk e w1 =>
    rw [h1] at hw0
    obtain ⟨f1, p1, q1, a1⟩ := hw0
    rw [htot, List.nil_append] at p1 q1
    cases e with
    | some e =>
      dsimp only
      exact ⟨(dropped_prefix w1).trans (p1.trans (List.prefix_append ..)), fun h => (by cases h), fun h _ _ => (by cases (a1 h).1)⟩
    | none =>
      dsimp only
      have q1 := q1 rfl
      obtain ⟨f2, p2, q2, a2⟩ := content_wrote c copy w1 f1 hc
      cases h2 : c.writeTo copy w1 with
      | mk e w2 =>
        rw [h2] at f2 p2 q2 a2
        rw [q1] at p2 q2
        cases e with
        | some e =>
          dsimp only
          exact ⟨(dropped_prefix w2).trans p2, fun h => (by cases h), fun h hb _ => (by cases (a2 (a1 h).2 hb).1)⟩
        | none =>
          dsimp only
          have q2 := q2 rfl
          dsimp only at q2
          obtain ⟨t3, c3, l3, n3⟩ := flushBuf_keeps w2
          cases h3 : w2.flushBuf with
          | mk e w3 =>
            rw [h3] at t3 n3
            dsimp only at t3 n3
            rw [q2] at t3
            cases e with
            | some e =>
              dsimp only
              refine ⟨t3 ▸ dropped_prefix w3, fun h => (by cases h), fun h hb _ => ?_⟩
              have := (flushBuf_accepts w2 (a2 (a1 h).2 hb).2).1
              rw [h3] at this
              cases this
            | none =>
              dsimp only
              have hb := n3 rfl
              refine ⟨t3 ▸ dropped_prefix w3, fun h => ?_, fun _ _ hfl => by rw [hfl]; rfl⟩
              refine ⟨?_, ?_⟩
              · have e3 : w3.flushBuf.1 = none := by unfold BufWrite.flushBuf; rw [hb]; cases w3.sink.calls <;> rfl
                rw [flushed_got w3 e3, t3]
              · cases flushed with
                | true => rfl
                | false => cases h

/-- C68: if writing succeeds, exactly the bytes of the request are on the connection, whatever the size of the buffer and however the
connection took them. -/
theorem c68_complete (r : Request) (c : Content) (copy : Copy) (flushed : Bool) (cap : Nat) (cs : List WriteCall) (hc : CopyOf c copy)
    (h : (r.writeTo c copy flushed cap ⟨cs, []⟩).1 = none) : (r.writeTo c copy flushed cap ⟨cs, []⟩).2.got = requestBytes r c.bytes :=
  ((writeTo_facts r c copy flushed cap cs hc).2.1 h).1

/-- C68: if writing fails, a beginning of the request is on the connection: nothing is repeated, left out or out of order. -/
theorem c68_prefix (r : Request) (c : Content) (copy : Copy) (flushed : Bool) (cap : Nat) (cs : List WriteCall) (hc : CopyOf c copy) :
    (r.writeTo c copy flushed cap ⟨cs, []⟩).2.got <+: requestBytes r c.bytes :=
  (writeTo_facts r c copy flushed cap cs hc).1

/-- C68: writing succeeds if no call fails or takes nothing; short and interrupted writes are no failures. -/
theorem c68_succeeds (r : Request) (c : Content) (copy : Copy) (cap : Nat) (cs : List WriteCall) (hc : CopyOf c copy)
    (ha : Accepts cs) (hb : copy.broken = none) : (r.writeTo c copy true cap ⟨cs, []⟩).1 = none :=
  (writeTo_facts r c copy true cap cs hc).2.2 ha hb rfl

/-- A request for the examples. -/
def smallRequest : Request := (Request.ofStr (fun _ => none) c!"POST http://h/p\nA: b\n\nhello").1

/-- Concrete case for `c68_succeeds` and `c68_complete`: a buffer of 8 bytes, short and interrupted writes. -/
example : Accepts [.accept 3, .interrupted, .accept 1, .accept 100] ∧
    smallRequest.writeTo (.byte (utf8 c!"hello")) ⟨[], none⟩ true 8 ⟨[.accept 3, .interrupted, .accept 1, .accept 100], []⟩ =
      (none, ⟨[], utf8 c!"POST /p HTTP/1.1\r\nA: b\r\n\r\nhello"⟩) := by
  refine ⟨?_, by decide +kernel⟩
  intro c hc
  simp only [List.mem_cons, List.not_mem_nil, or_false] at hc
  rcases hc with rfl | rfl | rfl | rfl
  · exact .inr ⟨2, rfl⟩
  · exact .inl rfl
  · exact .inr ⟨0, rfl⟩
  · exact .inr ⟨99, rfl⟩

/-- Concrete case for `c68_prefix`: the second write fails; dropping the writer still sends what is in its buffer. -/
example : smallRequest.writeTo (.byte (utf8 c!"hello")) ⟨[], none⟩ true 8 ⟨[.accept 3, .failed c!"reset"], []⟩ =
    (some (.writeFailed c!"reset"), ⟨[], utf8 c!"POST /p "⟩) := by
  decide +kernel

/-- Concrete case for multipart bodies: the reader of the body breaks. -/
example : CopyOf (.multipart (utf8 c!"abcdef")) ⟨[utf8 c!"ab", utf8 c!"c"], some c!"gone"⟩ ∧
    smallRequest.writeTo (.multipart (utf8 c!"abcdef")) ⟨[utf8 c!"ab", utf8 c!"c"], some c!"gone"⟩ true 8 ⟨[], []⟩ =
      (some (.writeFailed c!"gone"), ⟨[], utf8 c!"POST /p HTTP/1.1\r\nA: b\r\n\r\nabc"⟩) := by
  refine ⟨⟨⟨utf8 c!"def", by decide⟩, fun h => (by cases h)⟩, by decide +kernel⟩

/-! ## C69 -/

theorem connectHappy_ok {w : Wire} {addrs : List Addr} {a : Addr} (h : w.connectHappy addrs = some (.ok a)) : a ∈ addrs ∧ w.up a = true := by
  unfold Wire.connectHappy at h
  dsimp only at h
  split at h
  · rename_i b
    cases hu : w.up b with
    | true =>
      simp only [connectDirect, hu, if_true, Option.some.injEq, Except.ok.injEq] at h
      subst h
      exact ⟨List.mem_singleton.2 rfl, hu⟩
    | false => simp [connectDirect, hu] at h
  · split at h
    · rename_i r hr
      split at h
      · rename_i a' hp
        simp only [Option.some.injEq, Except.ok.injEq] at h
        subst h
        exact c48_connected w.up addrs w.race r _ hr hp
      · cases h
      · cases h
    · cases h

theorem connectHappy_error {w : Wire} {addrs : List Addr} {e : HttpError} (h : w.connectHappy addrs = some (.error e)) :
    (∀ a ∈ addrs, w.up a = false) ∧ e = if addrs = [] then .noConnectionAvailable else .tcpConnectFailed := by
  unfold Wire.connectHappy at h
  dsimp only at h
  split at h
  · rename_i b
    cases hu : w.up b with
    | true => simp [connectDirect, hu] at h
    | false =>
      simp only [connectDirect, hu, Bool.false_eq_true, if_false, Option.some.injEq, Except.error.injEq] at h
      subst h
      refine ⟨fun a ha => ?_, rfl⟩
      rw [List.mem_singleton] at ha
      subst ha
      exact hu
  · split at h
    · rename_i r hr
      split at h
      · cases h
      · rename_i e' hp
        simp only [Option.some.injEq, Except.error.injEq] at h
        subst h
        obtain ⟨h1, h2, h3⟩ := c48_failed w.up addrs w.race r _ hr hp
        refine ⟨h1, ?_⟩
        split
        · exact h2.2 (by assumption)
        · exact h3.2 (by assumption)
      · cases h
    · cases h

/-- C69: when connecting fails, the error text names the cause: it is the text of exactly the reason that holds. -/
theorem c69_cause (w : Wire) (url : Url) (e : HttpError) (h : w.connect url = some (.error e)) : NoConnection w url e.text := by
  have tcp : ∀ (hn : url.scheme = .Https → w.nameOk url.host = true ∧ w.tlsOk url.host = true), w.connectTcp url.host url.port = some (.error e) → NoConnection w url e.text := by
    intro hn h
    unfold Wire.connectTcp at h
    split at h
    · rename_i hr
      cases h
      exact .host hn hr
    · rename_i addrs hr
      split at h
      · rename_i a ha
        split at h
        · cases h
        · rename_i ht
          cases h
          obtain ⟨h1, h2⟩ := connectHappy_ok ha
          exact .timeout addrs hn hr ⟨a, h1, h2⟩ (by simpa using ht)
      · obtain ⟨h1, h2⟩ := connectHappy_error h
        subst h2
        split
        · rename_i he
          subst he
          exact .nowhere hn hr
        · rename_i he
          exact .down addrs hn hr he h1
  unfold Wire.connect at h
  split at h
  · rename_i hs
    exact tcp (fun h => (by rw [hs] at h; cases h)) h
  · rename_i hs
    split at h
    · rename_i hn
      cases h
      exact .name hs hn
    · rename_i hn
      split at h
      · rename_i ht
        cases h
        exact .tls hs (by simpa using hn) ht
      · rename_i ht
        exact tcp (fun _ => ⟨by simpa using hn, by simpa using ht⟩) h

/-- C69: a connection leads to an address of the host that accepts connections, with all preparations done. -/
theorem c69_peer (w : Wire) (url : Url) (a : Addr) (h : w.connect url = some (.ok a)) :
    (∃ addrs, w.resolved url.host url.port = some addrs ∧ a ∈ addrs ∧ w.up a = true) ∧ w.timeoutOk = true ∧ (url.scheme = .Https → w.nameOk url.host = true ∧ w.tlsOk url.host = true) := by
  have tcp : w.connectTcp url.host url.port = some (.ok a) → (∃ addrs, w.resolved url.host url.port = some addrs ∧ a ∈ addrs ∧ w.up a = true) ∧ w.timeoutOk = true := by
    intro h
    unfold Wire.connectTcp at h
    split at h
    · cases h
    · rename_i addrs hr
      split at h
      · rename_i b ha
        split at h
        · rename_i ht
          simp only [Option.some.injEq, Except.ok.injEq] at h
          subst h
          obtain ⟨h1, h2⟩ := connectHappy_ok ha
          exact ⟨⟨addrs, hr, h1, h2⟩, ht⟩
        · cases h
      · rename_i hne
        exact absurd h (hne a)
  unfold Wire.connect at h
  split at h
  · rename_i hs
    exact ⟨(tcp h).1, (tcp h).2, fun h => (by rw [hs] at h; cases h)⟩
  · split at h
    · cases h
    · rename_i hn
      split at h
      · cases h
      · rename_i ht
        exact ⟨(tcp h).1, (tcp h).2, fun _ => ⟨by simpa using hn, by simpa using ht⟩⟩

/-- The causes exclude each other: at most one text explains a failure, and none when a connection is made. -/
theorem noConnection_unique {w : Wire} {url : Url} {s t : Str} (h : NoConnection w url s) (h' : NoConnection w url t) : s = t := by
  cases h <;> cases h' <;> first | rfl | (exfalso; simp_all; done) | skip
  · rename_i addrs _ hr _ hd addrs' _ hr' hu _
    rw [hr] at hr'
    cases hr'
    obtain ⟨a, ha, hau⟩ := hu
    rw [hd a ha] at hau
    cases hau
  · rename_i addrs _ hr hu _ addrs' _ hr' _ hd
    rw [hr] at hr'
    cases hr'
    obtain ⟨a, ha, hau⟩ := hu
    rw [hd a ha] at hau
    cases hau

/-- C69: a failure to connect is reported with a text if and only if the cause it names holds. -/
theorem c69_iff (w : Wire) (url : Url) (r : Except HttpError Addr) (h : w.connect url = some r) (s : Str) :
    (∃ e, r = .error e ∧ e.text = s) ↔ NoConnection w url s := by
  constructor
  · rintro ⟨e, rfl, rfl⟩
    exact c69_cause w url e h
  · intro hn
    cases r with
    | error e => exact ⟨e, rfl, noConnection_unique (c69_cause w url e h) hn⟩
    | ok a =>
      obtain ⟨⟨addrs, h1, h2, h3⟩, h4, h5⟩ := c69_peer w url a h
      exfalso
      cases hn with
      | name h6 h7 => rw [(h5 h6).1] at h7; cases h7
      | tls h6 h7 h8 => rw [(h5 h6).2] at h8; cases h8
      | host _ h7 => rw [h1] at h7; cases h7
      | nowhere _ h7 => rw [h1] at h7; cases h7; cases h2
      | down _ _ h7 _ h9 => rw [h1] at h7; cases h7; rw [h9 a h2] at h3; cases h3
      | timeout _ _ _ _ h9 => rw [h4] at h9; cases h9

/-- C69: connecting is decided once the race can go no further. -/
theorem c69_decided (w : Wire) (url : Url) (h : ∀ addrs, w.resolved url.host url.port = some addrs → ∃ r, (Race.init addrs).run w.up w.race = some r ∧ ∀ s, r.step w.up s = none) :
    w.connect url ≠ none := by
  have tcp : w.connectTcp url.host url.port ≠ none := by
    unfold Wire.connectTcp
    cases hr : w.resolved url.host url.port with
    | none => exact fun h => (by cases h)
    | some addrs =>
      obtain ⟨r, h1, h2⟩ := h addrs hr
      have hh : w.connectHappy addrs ≠ none := by
        unfold Wire.connectHappy
        dsimp only
        split
        · rename_i a
          cases hu : w.up a <;> simp [connectDirect, hu]
        · rw [h1]
          dsimp only
          by_cases hn : r.ended
          · rcases hn with ⟨a, ha⟩ | ⟨e, he⟩
            · rw [ha]; exact fun h => (by cases h)
            · rw [he]; exact fun h => (by cases h)
          · obtain ⟨⟨s, r', hs⟩, _⟩ := c48_progress w.up r hn
            rw [h2 s] at hs
            cases hs
      dsimp only
      split
      · exact fun h => (by cases h)
      · exact hh
  unfold Wire.connect
  split
  · exact tcp
  · split
    · exact fun h => (by cases h)
    · split
      · exact fun h => (by cases h)
      · exact tcp

theorem writeLoop_loud (zero : Str) : ∀ (cs : List WriteCall) (got bs : List UInt8),
    (∀ e, (writeLoop zero cs got bs).1 = some e → e = zero ∨ .failed e ∈ cs) ∧ ∀ c ∈ (writeLoop zero cs got bs).2.2.calls, c ∈ cs := by
  intro cs
  induction cs with
  | nil => intro got bs; cases bs <;> simp [writeLoop]
  | cons c cs ih =>
    intro got bs
    cases bs with
    | nil => simp [writeLoop]
    | cons b bs =>
      have keep : ∀ got bs, (∀ e, (writeLoop zero cs got bs).1 = some e → e = zero ∨ .failed e ∈ c :: cs) ∧
          ∀ x ∈ (writeLoop zero cs got bs).2.2.calls, x ∈ c :: cs := fun got bs =>
        ⟨fun e he => ((ih got bs).1 e he).imp id (List.mem_cons_of_mem _), fun x hx => List.mem_cons_of_mem _ ((ih got bs).2 x hx)⟩
      cases c with
      | accept n =>
        cases n with
        | zero =>
          refine ⟨fun e he => .inl ?_, fun x hx => List.mem_cons_of_mem _ hx⟩
          simp only [writeLoop, Option.some.injEq] at he
          exact he.symm
        | succ n => rw [writeLoop]; exact keep _ _
      | interrupted => rw [writeLoop]; exact keep _ _
      | failed e =>
        refine ⟨fun e' he => .inr ?_, fun x hx => List.mem_cons_of_mem _ hx⟩
        simp only [writeLoop, Option.some.injEq] at he
        subst he
        exact List.mem_cons_self ..

/-- Write errors have a text. -/
def LoudCalls (cs : List WriteCall) : Prop := ∀ t, .failed t ∈ cs → t ≠ []

theorem writeLoop_text {zero : Str} (hz : zero ≠ []) {cs : List WriteCall} (h : LoudCalls cs) (got bs : List UInt8) :
    (∀ e, (writeLoop zero cs got bs).1 = some e → e ≠ []) ∧ LoudCalls (writeLoop zero cs got bs).2.2.calls := by
  obtain ⟨h1, h2⟩ := writeLoop_loud zero cs got bs
  refine ⟨fun e he => ?_, fun t ht => h t (h2 _ ht)⟩
  rcases h1 e he with rfl | hm
  · exact hz
  · exact h e hm

theorem flushBuf_text {w : BufWrite} (h : LoudCalls w.sink.calls) : (∀ e, w.flushBuf.1 = some e → e ≠ []) ∧ LoudCalls w.flushBuf.2.sink.calls :=
  writeLoop_text (by decide) h _ _

theorem writeAll_text {w : BufWrite} (h : LoudCalls w.sink.calls) (p : List UInt8) :
    (∀ e, (w.writeAll p).1 = some e → e ≠ []) ∧ LoudCalls (w.writeAll p).2.sink.calls := by
  unfold BufWrite.writeAll
  split
  · exact ⟨fun _ he => (by cases he), h⟩
  · have hst : ∃ e w1, (if w.cap - w.buf.length < p.length then w.flushBuf else (none, w)) = (e, w1) ∧ (∀ x, e = some x → x ≠ []) ∧ LoudCalls w1.sink.calls := by
      split
      · exact ⟨_, _, rfl, flushBuf_text h⟩
      · exact ⟨_, _, rfl, fun _ he => (by cases he), h⟩
    obtain ⟨e, w1, he, h1, h2⟩ := hst
    rw [he]
    cases e with
    | some e => exact ⟨fun x hx => h1 x hx, h2⟩
    | none =>
      dsimp only
      split
      · exact writeLoop_text (by decide) h2 _ _
      · exact ⟨fun _ he => (by cases he), h2⟩

theorem writeMany_text : ∀ (ps : List (List UInt8)) {w : BufWrite}, LoudCalls w.sink.calls →
    (∀ e, (w.writeMany ps).1 = some e → e ≠ []) ∧ LoudCalls (w.writeMany ps).2.sink.calls
  | [], w, h => ⟨fun _ he => (by cases he), h⟩
  | p :: ps, w, h => by
    unfold BufWrite.writeMany
    obtain ⟨h1, h2⟩ := writeAll_text h p
    cases he : w.writeAll p with
    | mk e w1 =>
      rw [he] at h1 h2
      cases e with
      | some e => exact ⟨h1, h2⟩
      | none => exact writeMany_text ps h2

theorem writeTo_text (r : Request) (c : Content) (copy : Copy) (flushed : Bool) (cap : Nat) (cs : List WriteCall) (h : LoudCalls cs)
    (hb : ∀ t, copy.broken = some t → t ≠ []) (e : HttpError) (he : (r.writeTo c copy flushed cap ⟨cs, []⟩).1 = some e) : e.text ≠ [] := by
  unfold Request.writeTo at he
  obtain ⟨h1, h2⟩ := writeMany_text r.pieces (w := ⟨cap, [], ⟨cs, []⟩⟩) h
  cases hx : (BufWrite.mk cap [] ⟨cs, []⟩).writeMany r.pieces with
  | mk x w1 =>
    rw [hx] at he h1 h2
    cases x with
    | some x => simp only [Option.some.injEq] at he; subst he; exact h1 x rfl
    | none =>
      dsimp only at he h2
      have h3 : (∀ e, (c.writeTo copy w1).1 = some e → e ≠ []) := by
        cases c with
        | empty => exact fun _ he => (by cases he)
        | byte bs => exact (writeAll_text h2 bs).1
        | multipart bs =>
          unfold Content.writeTo
          dsimp only
          obtain ⟨h4, _⟩ := writeMany_text copy.copied h2
          cases hy : w1.writeMany copy.copied with
          | mk y w2 =>
            rw [hy] at h4
            cases y with
            | some y => exact h4
            | none => exact hb
      cases hy : c.writeTo copy w1 with
      | mk y w2 =>
        rw [hy] at he h3
        cases y with
        | some y => simp only [Option.some.injEq] at he; subst he; exact h3 y rfl
        | none =>
          dsimp only at he
          cases hz : w2.flushBuf with
          | mk z w3 =>
            rw [hz] at he
            cases z with
            | some z => simp only [Option.some.injEq] at he; subst he; decide
            | none =>
              cases flushed with
              | true => cases he
              | false => simp only [Bool.false_eq_true, if_false, Option.some.injEq] at he; subst he; decide

/-- The exchange that the calls on the connection amount to. -/
def Wire.exchange (w : Wire) (mp : List Part → Option (List UInt8)) (message : Str) : Option Exchange :=
  let (request, content) := Request.ofStr mp message
  match w.connect request.url with
  | none => none
  | some (.error e) => some (.refused e w.clocks)
  | some (.ok _) =>
    match (request.writeTo content w.copy w.flushed w.cap ⟨w.writes, []⟩).1 with
    | some e => some (.broken e w.clocks)
    | none => some (.answered (Reads.incoming ⟨w.reads, streamEnd (request.url.scheme == .Https) w.ending⟩) w.clocks)

/-- C69: sending call by call is the exchange of `Model/Http.lean`; everything proved about `send` holds for it. -/
theorem c69_refines (w : Wire) (mp : List Part → Option (List UInt8)) (m : Str) (s : Sent) (h : w.send mp m = some s) :
    ∃ ex, w.exchange mp m = some ex ∧ s.result = Am.send ⟨fun _ _ => ex, mp⟩ [] m ∧ clocksOf ex = w.clocks := by
  unfold Wire.send at h
  unfold Wire.exchange Am.send
  dsimp only
  cases hr : Request.ofStr mp m with
  | mk request content =>
    rw [hr] at h
    dsimp only at h ⊢
    cases hc : w.connect request.url with
    | none => rw [hc] at h; cases h
    | some r =>
      rw [hc] at h
      cases r with
      | error e => cases h; exact ⟨_, rfl, rfl, rfl⟩
      | ok a =>
        dsimp only at h ⊢
        cases he : request.writeTo content w.copy w.flushed w.cap ⟨w.writes, []⟩ with
        | mk e sink =>
          rw [he] at h
          cases e with
          | some e =>
            refine ⟨_, rfl, ?_, rfl⟩
            unfold Am.exchange
            dsimp only
            cases ht : Time.connected w.clocks <;> rw [ht] at h <;> cases h <;> rfl
          | none =>
            refine ⟨_, rfl, ?_, rfl⟩
            rw [receive_incoming] at h
            unfold Am.exchange
            dsimp only at h ⊢
            generalize Reads.incoming ⟨w.reads, streamEnd (request.url.scheme == .Https) w.ending⟩ = inc at h ⊢
            cases ht : Time.connected w.clocks with
            | ok t =>
              rw [ht] at h
              dsimp only at h
              simp only [bind, Res.bind]
              cases hrd : Response.read inc with
              | ok resp =>
                rw [hrd] at h
                obtain ⟨hf, -⟩ := responseRead_ok hrd
                rw [hf] at h
                simp only [Option.isSome_none, Bool.and_false, Bool.not_false, if_true, Option.some.injEq] at h
                subst h
                rfl
              | err e =>
                rw [hrd] at h
                dsimp only at h ⊢
                cases hb : (inc.bytes.isEmpty && inc.failure.isSome) <;> rw [hb] at h <;> cases h <;> rfl
              | panic => rw [hrd] at h; cases h; rfl
              | hang => rw [hrd] at h; cases h; rfl
            | err e => rw [ht] at h; cases h; rfl
            | panic => rw [ht] at h; cases h; rfl
            | hang => rw [ht] at h; cases h; rfl

theorem incoming_loud {w : Wire} (hl : Loud w) {cipher : Bool} {e : Str} (h : (Reads.incoming ⟨w.reads, streamEnd cipher w.ending⟩).failure = some e) : e ≠ [] := by
  unfold Reads.incoming at h
  split at h
  · rename_i t rest hr
    simp only [Option.some.injEq] at h
    subst h
    exact hl.reads _ (by dsimp only at hr; rw [hr]; exact List.mem_cons_self ..)
  · exact hl.ending _ _ h

/-- C69: what has gone over the connection when `send` returns: a beginning of the request, and all of it, followed by the response that is
returned, exactly when no error is reported. -/
theorem c69_sent (w : Wire) (mp : List Part → Option (List UInt8)) (m : Str) (s : Sent) (rq : Request) (rs : Response) (t : Time) (txt : Str)
    (h : w.send mp m = some s) (hl : Loud w) (hc : CopyOf (Request.ofStr mp m).2 w.copy) (hr : s.result = .ok (rq, rs, t, txt)) :
    rq = (Request.ofStr mp m).1 ∧ s.bytes <+: requestBytes rq (Request.ofStr mp m).2.bytes ∧
    (∀ a, s.peer = some a ↔ w.connect rq.url = some (.ok a)) ∧ (s.peer = none → s.bytes = [] ∧ NoConnection w rq.url txt) ∧
    (txt = [] → s.peer ≠ none ∧ s.bytes = requestBytes rq (Request.ofStr mp m).2.bytes ∧
      (Response.receive ⟨w.reads, streamEnd (rq.url.scheme == .Https) w.ending⟩).1 = .ok rs) ∧
    (txt ≠ [] → rs = ⟨[], 0, [], [], []⟩) := by
  unfold Wire.send at h
  cases hq : Request.ofStr mp m with
  | mk request content =>
    rw [hq] at h hc
    dsimp only at h hc ⊢
    obtain ⟨w1, w2, -⟩ := writeTo_facts request content w.copy w.flushed w.cap w.writes hc
    have w3 := writeTo_text request content w.copy w.flushed w.cap w.writes hl.writes hl.copy
    cases hcn : w.connect request.url with
    | none => rw [hcn] at h; cases h
    | some r =>
      rw [hcn] at h
      cases r with
      | error e =>
        cases h
        cases hr
        refine ⟨rfl, List.nil_prefix .., fun a => ⟨fun h => (by cases h), fun h => (by rw [hcn] at h; cases h)⟩, fun _ => ⟨rfl, c69_cause w _ e hcn⟩, fun ht => ?_, fun _ => rfl⟩
        have := c69_cause w _ e hcn
        rw [ht] at this
        generalize he : ([] : Str) = z at this
        cases this <;> cases he
      | ok a =>
        have peer : ∀ b : Addr, (some a = some b ↔ w.connect request.url = some (.ok b)) := by
          intro b; rw [hcn]; constructor
          · intro h; cases h; rfl
          · intro h; cases h; rfl
        dsimp only at h
        cases hw : request.writeTo content w.copy w.flushed w.cap ⟨w.writes, []⟩ with
        | mk e sink =>
          rw [hw] at h w1 w2 w3
          dsimp only at w1 w2 w3
          cases htm : Time.connected w.clocks with
          | err e => rw [htm] at h; cases h; cases hr
          | panic => rw [htm] at h; cases h; cases hr
          | hang => rw [htm] at h; cases h; cases hr
          | ok t0 =>
            rw [htm] at h
            dsimp only at h
            cases e with
            | some e =>
              cases h
              cases hr
              exact ⟨rfl, w1, peer, fun h => (by cases h), fun ht => absurd ht (w3 e rfl), fun _ => rfl⟩
            | none =>
              obtain ⟨w4, -⟩ := w2 rfl
              cases hrc : Response.receive ⟨w.reads, streamEnd (request.url.scheme == .Https) w.ending⟩ with
              | mk rr first =>
                rw [hrc] at h
                dsimp only at h
                cases rr with
                | panic => cases h; cases hr
                | hang => cases h; cases hr
                | err e =>
                  cases h
                  cases hr
                  refine ⟨rfl, w1, peer, fun h => (by cases h), fun ht => ?_, fun _ => rfl⟩
                  exfalso
                  rw [receive_incoming] at hrc
                  rcases responseRead_err (congrArg Prod.fst hrc) with he | he
                  · rw [show e = [] from ht] at he; exact absurd he (by decide)
                  · exact incoming_loud hl he ht
                | ok resp =>
                  cases h
                  dsimp only at hr
                  generalize (if first = true then { t0 with delay := since w.clocks.first w.clocks.rd } else t0) = t1 at hr
                  cases htc : t1.completed w.clocks with
                  | ok t2 =>
                    rw [htc] at hr
                    cases hr
                    exact ⟨rfl, w1, peer, fun h => (by cases h), fun _ => ⟨fun h => (by cases h), w4, by rw [hrc]⟩, fun h => absurd rfl h⟩
                  | err e => rw [htc] at hr; cases hr
                  | panic => rw [htc] at hr; cases hr
                  | hang => rw [htc] at hr; cases hr

/-- A network with two addresses of which the second works, a slow connection and a reply in two pieces. -/
def smallWire : Wire where
  nameOk := fun _ => true
  tlsOk := fun _ => true
  resolved := fun _ _ => some [⟨true, 1⟩, ⟨false, 2⟩]
  up := fun a => a.id == 2
  race := [.main, .timeout, .main, .finish ⟨true, 1⟩, .recv, .main, .finish ⟨false, 2⟩, .recv]
  timeoutOk := true
  writes := [.accept 5, .interrupted]
  copy := ⟨[], none⟩
  flushed := true
  cap := 8
  reads := [.data 72 (utf8 c!"TTP/1.1 200 O"), .data 75 (utf8 c!"\r\n\r\nhi")]
  ending := .cut c!"eof"
  clocks := ⟨0, 10, 11, 13, 17, 20, 23, 29, 30, 9⟩

/-- Concrete case for C69: a completed exchange. -/
example : Loud smallWire ∧ smallWire.send (fun _ => none) c!"GET https://h/p" =
    some ⟨.ok (⟨.Get, ⟨.Https, c!"h", 443, c!"/p"⟩, .Http11, [], []⟩, ⟨c!"HTTP/1.1", 200, c!"OK", [], c!"hi"⟩, ⟨0, 9, 20, 2, 5, 4, 3, 6⟩, []),
      some ⟨false, 2⟩, utf8 c!"GET /p HTTP/1.1\r\n\r\n"⟩ := by
  refine ⟨⟨?_, (fun t h => (by cases h)), ?_, ?_⟩, ?_⟩
  · intro t h; simp [smallWire] at h
  · intro t h; simp [smallWire] at h
  · intro c t h; cases c <;> simp [smallWire, streamEnd] at h; subst h; decide
  · have hr : Request.ofStr (fun _ => none) c!"GET https://h/p" = (⟨.Get, ⟨.Https, c!"h", 443, c!"/p"⟩, .Http11, [], []⟩, .empty) := by decide +kernel
    have hc : smallWire.connect ⟨.Https, c!"h", 443, c!"/p"⟩ = some (.ok ⟨false, 2⟩) := by
      simp [smallWire, Wire.connect, Wire.connectTcp, Wire.connectHappy, Race.init, attemptOrder, rotate, Race.run, Race.step, Race.handle, raceError]
    have hw : (⟨.Get, ⟨.Https, c!"h", 443, c!"/p"⟩, .Http11, [], []⟩ : Request).writeTo .empty smallWire.copy smallWire.flushed smallWire.cap ⟨smallWire.writes, []⟩ =
        (none, ⟨[], utf8 c!"GET /p HTTP/1.1\r\n\r\n"⟩) := by decide +kernel
    have hg : Response.receive ⟨smallWire.reads, streamEnd true smallWire.ending⟩ = (.ok ⟨c!"HTTP/1.1", 200, c!"OK", [], c!"hi"⟩, true) := by
      rw [receive_incoming]; decide +kernel
    unfold Wire.send
    rw [hr]
    dsimp only
    rw [hc]
    dsimp only
    rw [hw]
    have hq : (Scheme.Https == Scheme.Https) = true := rfl
    rw [hq, hg]
    rfl

/-- Concrete cases for C69: causes of failures. -/
example : ({ smallWire with resolved := fun _ _ => none } : Wire).connect ⟨.Https, c!"h", 443, c!"/"⟩ = some (.error .hostNotFound) ∧
    ({ smallWire with nameOk := fun _ => false } : Wire).connect ⟨.Https, c!"h", 443, c!"/"⟩ = some (.error .invalidUrlHost) ∧
    ({ smallWire with up := fun _ => false, race := smallWire.race ++ [.giveUp] } : Wire).connect ⟨.Http, c!"h", 80, c!"/"⟩ = some (.error .tcpConnectFailed) :=
  ⟨rfl, rfl, by simp [smallWire, Wire.connect, Wire.connectTcp, Wire.connectHappy, Race.init, attemptOrder, rotate, Race.run, Race.step, Race.handle, raceError]⟩

end Am
