import Verif.Model.Silent
import Verif.Spec.Io
import Verif.Spec.Framing
import Verif.Spec.Response
import Verif.Spec.Run
/-! # Connections that stay open (C91) and requests that are never answered (C92) -/
namespace Am.Spec
open Am

/-- Not UTF-8. -/
def NotText (l : List UInt8) : Prop := ∀ s, utf8 s ≠ l

/-- Among the header lines received completely there is one that is not UTF-8. -/
inductive BadFields : List UInt8 → Prop
  | here (l r : List UInt8) : 10 ∉ l → NotText l → BadFields (l ++ 10 :: r)
  | later (s : Str) (r : List UInt8) : '\n' ∉ s → (∃ c ∈ s, isWs c = false) → BadFields r → BadFields (utf8 s ++ 10 :: r)

/-- The first line, received completely, is not UTF-8, or one of the header lines is not. -/
inductive BadHead : List UInt8 → Prop
  | first (l r : List UInt8) : 10 ∉ l → NotText l → BadHead (l ++ 10 :: r)
  | fields (s : Str) (r : List UInt8) : '\n' ∉ s → BadFields r → BadHead (utf8 s ++ 10 :: r)

/-- A complete response (RFC 9112, section 6.3) to a request other than HEAD and CONNECT whose end does not need the end of the connection. -/
def CompleteAnswer (bytes : List UInt8) : Prop :=
  ∃ s line rest body ws status hs b, bytes = utf8 s ∧ FirstLine s line rest ∧ Words line ws ∧ StatusOf ws[1]? status ∧ HeaderText rest hs body ∧
    responseFraming status (hs.map fun h => (h.name, h.value)) ≠ .close ∧
    bodyBy (responseFraming status (hs.map fun h => (h.name, h.value))) (utf8 body) = some (b, [])

/-- The header fields ask the server to close the connection after the response (RFC 9112, section 9.6). -/
def AsksToClose (hs : List Header) : Prop :=
  c!"close" ∈ ((fieldValues c!"connection" (hs.map fun h => (h.name, h.value))).flatMap listItems).map fun w => w.map asciiLower

/-- One of the messages sent, in this order, is never answered. -/
def Unanswered (quiet : List Str → Str → Bool) (sent : List Str) : Prop := ∃ before m after, sent = before ++ m :: after ∧ quiet before m = true

variable {F : Type}

/-- The worker is in the same state, or it waits for an answer in the evaluation that the other is about to start. -/
def WaitsOrSame (w w' : Worker F) : Prop := w = w' ∨ (w'.pc = .eval ∧ ∃ ctx, w = { w' with pc := .stuck, ctx })

/-- The same state of the program, except that some threads wait for an answer in an evaluation that they are about to start in the other. -/
structure OnlyWaits (r r' : Run F) : Prop where
  workers : r.workers.length = r'.workers.length ∧ ∀ (i : Nat) w w', r.workers[i]? = some w → r'.workers[i]? = some w' → WaitsOrSame w w'
  continuous : r.continuous = r'.continuous
  channel : r.channel = r'.channel
  mainSender : r.mainSender = r'.mainSender
  collector : r.collector = r'.collector
  stats : r.stats = r'.stats
  statistics : outOf none r.out = outOf none r'.out
  out : ∀ (i : Nat) w, r.workers[i]? = some w → r'.workers[i]? = some w → outOf (some i) r.out = outOf (some i) r'.out
  /-- a waiting thread has also printed what the evaluation has printed before the request -/
  outWaiting : ∀ (i : Nat) w w', r.workers[i]? = some w → r'.workers[i]? = some w' → w ≠ w' → ∃ t, outOf (some i) r.out = outOf (some i) r'.out ++ [t]

end Am.Spec
