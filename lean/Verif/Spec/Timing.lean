import Verif.Model.Exit
import Verif.Spec.Http
/-! # What may depend on the clock (C87) -/
namespace Am.Spec
open Am
variable {F : Type}

/-- The same outcome of an exchange, at other times; the monotonic clock never goes back. -/
inductive SameAnswer : Exchange → Exchange → Prop
  | refused (e : HttpError) {c c' : Clocks} : SameAnswer (.refused e c) (.refused e c')
  | broken (e : HttpError) {c c' : Clocks} : Monotone c → Monotone c' → SameAnswer (.broken e c) (.broken e c')
  | answered (inc : Incoming) {c c' : Clocks} : Monotone c → Monotone c' → SameAnswer (.answered inc c) (.answered inc c')

/-- Two networks that answer the same, each in its own time. -/
def SameAnswers (net net' : Net) : Prop := net.multipart = net'.multipart ∧ ∀ sent m, SameAnswer (net.exch sent m) (net'.exch sent m)

/-- Two records of the same exchange: they differ only in the times. -/
def SameRecord (r r' : Record) : Prop :=
  r.name = r'.name ∧ r.request = r'.request ∧ r.response = r'.response ∧ r.asserts = r'.asserts ∧ r.error = r'.error

/-- Item by item. -/
inductive Each {α : Type} (R : α → α → Prop) : List α → List α → Prop
  | nil : Each R [] []
  | cons {a b : α} {l m : List α} : R a b → Each R l m → Each R (a :: l) (b :: m)

/-- The same variables, requests and exchanges. -/
def SameContext (c c' : Context F) : Prop := c.inner = c'.inner ∧ c.requests = c'.requests ∧ Each SameRecord c.records c'.records

/-- The same context, the same messages sent, the same text printed. -/
def SameState (s s' : St F) : Prop := SameContext s.ctx s'.ctx ∧ s.sent = s'.sent ∧ s.out = s'.out

/-- Two threads at the same place. -/
inductive SamePc : WorkerPc → WorkerPc → Prop
  | same (p : WorkerPc) : SamePc p p
  | print {rs rs' left left' : List Record} : Each SameRecord rs rs' → Each SameRecord left left' → SamePc (.print rs left) (.print rs' left')
  | write {rs rs' : List Record} : Each SameRecord rs rs' → SamePc (.write rs) (.write rs')
  | send {rs rs' : List Record} : Each SameRecord rs rs' → SamePc (.send rs) (.send rs')

/-- Two record files with the same records in them. -/
inductive SameFile : List UInt8 → List UInt8 → Prop
  | same (f : List UInt8) : SameFile f f
  | block {f f' : List UInt8} {rs rs' : List Record} (name : Str) (thread number : Nat) : SameFile f f' → Each SameRecord rs rs' →
      SameFile (f ++ encBlock rs name thread number) (f' ++ encBlock rs' name thread number)

/-- The same file or none. -/
inductive SameFiles : Option (List UInt8) → Option (List UInt8) → Prop
  | none : SameFiles none none
  | some {f f' : List UInt8} : SameFile f f' → SameFiles (some f) (some f')

/-- Two threads that have done the same so far. -/
structure SameWorker (w w' : Worker F) : Prop where
  pc : SamePc w.pc w'.pc
  name : w.name = w'.name
  test : w.test = w'.test
  ctx : SameContext w.ctx w'.ctx
  number : w.number = w'.number
  file : SameFiles w.file w'.file

/-- The same names with the same counts. -/
def SameCounts (s s' : Stats) : Prop := s.map (fun p => (p.1, p.2.count)) = s'.map (fun p => (p.1, p.2.count))

/-- The same piece of output: the same text, the reports of two records of the same exchange, or the statistics of the same numbers of
exchanges. -/
inductive SameChunk (F : Type) [Rt F] : Option Nat × Str → Option Nat × Str → Prop
  | same (c : Option Nat × Str) : SameChunk F c c
  | report (i : Nat) {r r' : Record} : SameRecord r r' → SameChunk F (some i, r.text ++ c!"\n") (some i, r'.text ++ c!"\n")
  | stats {s s' : Stats} : SameCounts s s' → SameChunk F (none, s.text F) (none, s'.text F)

/-- Two runs that have come to the same point. -/
structure SameRun [Rt F] (r r' : Run F) : Prop where
  workers : Each SameWorker r.workers r'.workers
  continuous : r.continuous = r'.continuous
  channel : Each (Each SameRecord) r.channel r'.channel
  mainSender : r.mainSender = r'.mainSender
  collector : r.collector = r'.collector
  stats : SameCounts r.stats r'.stats
  out : Each (SameChunk F) r.out r'.out

/-- The same choice of the scheduler; the network answers the same. -/
inductive SameStep : RunStep → RunStep → Prop
  | same (s : RunStep) : (∀ i net, s ≠ .work i net) → SameStep s s
  | work (i : Nat) {net net' : Net} : SameAnswers net net' → SameStep (.work i net) (.work i net')

end Am.Spec
