import Verif.Model.Http
/-! # lib/src/http/stream.rs: address order and the connection race -/
namespace Am

/-- stream.rs:193-211 `rotate`: alternate between the two sequences, then the rest of the longer one. -/
def rotate {α : Type} : List α → List α → List α
  | a :: as, b :: bs => a :: b :: rotate as bs
  | a :: as, [] => a :: rotate as []
  | [], b :: bs => b :: rotate [] bs
  | [], [] => []

/-- A socket address: only whether it is IPv6 matters (stream.rs:68). -/
structure Addr where
  v6 : Bool
  id : Nat
  deriving DecidableEq, Repr

/-- stream.rs:68, 89: the order in which addresses are tried. -/
def attemptOrder (addrs : List Addr) : List Addr := rotate (addrs.filter (·.v6)) (addrs.filter (!·.v6))

/-- Where the main thread of `connect_happy` is. -/
inductive RacePc where
  /-- head of the loop of stream.rs:89 -/
  | head
  /-- in `recv_timeout` (line 95) -/
  | wait
  /-- after `drop(sender)`, in the loop of line 109 -/
  | drain
  /-- returned a connection to this address (lines 97, 111) -/
  | connected (a : Addr)
  /-- returned `Err` (line 116): the first error received (by address), or `NoConnectionAvailable` -/
  | failed (first : Option Addr)
  deriving DecidableEq, Repr

/-- The state of stream.rs:61-117 `connect_happy` in the racing case (two or more addresses, or none). -/
structure Race where
  pc : RacePc
  /-- addresses not tried yet (the iterator of line 89) -/
  todo : List Addr
  /-- attempts running in their threads (lines 91-94) -/
  running : List Addr
  /-- results in the channel, oldest first; `true` is a connection -/
  queue : List (Addr × Bool)
  /-- line 70: the first error received, by its address -/
  error : Option Addr
  deriving DecidableEq, Repr

/-- Scheduler choices. -/
inductive RaceStep where
  /-- main: the next iteration of the loop of line 89, or its end -/
  | main
  /-- the attempt thread of `a` finishes and sends its result (line 93) -/
  | finish (a : Addr)
  /-- main: receive a result (lines 95-99 or 109-113) -/
  | recv
  /-- main: `recv_timeout` returns without a result (line 95) -/
  | timeout
  /-- main: the channel is empty and disconnected (the loop of line 109 ends), line 116 -/
  | giveUp
  deriving DecidableEq, Repr

/-- stream.rs:73-85 `handle_result`; `next` is where main goes after a failed attempt. -/
def Race.handle (r : Race) (next : RacePc) (a : Addr) (ok : Bool) : Race :=
  if ok then { r with pc := .connected a }
  else { r with pc := next, error := (match r.error with | none => some a | some e => some e) }

/-- One step; `up a` says whether connecting to `a` succeeds. `none`: the step is not enabled. -/
def Race.step (up : Addr → Bool) (r : Race) : RaceStep → Option Race
  | .main =>
    match r.pc, r.todo with
    | .head, a :: rest => some { r with pc := .wait, todo := rest, running := r.running ++ [a] }
    | .head, [] => some { r with pc := .drain }
    | _, _ => none
  | .finish a =>
    if a ∈ r.running then some { r with running := r.running.erase a, queue := r.queue ++ [(a, up a)] } else none
  | .recv =>
    match r.pc, r.queue with
    | .wait, (a, ok) :: q => some ({ r with queue := q }.handle .head a ok)
    | .drain, (a, ok) :: q => some ({ r with queue := q }.handle .drain a ok)
    | _, _ => none
  | .timeout =>
    match r.pc with
    | .wait => some { r with pc := .head }
    | _ => none
  | .giveUp =>
    match r.pc, r.queue, r.running with
    | .drain, [], [] => some { r with pc := .failed r.error }
    | _, _, _ => none

/-- stream.rs:68-71: the state before the loop. -/
def Race.init (addrs : List Addr) : Race := ⟨.head, attemptOrder addrs, [], [], none⟩

/-- stream.rs:62-65: with exactly one address there is no race. -/
def connectDirect (up : Addr → Bool) (a : Addr) : RacePc := if up a then .connected a else .failed (some a)

/-- stream.rs:116: the error returned; every attempt error is `TcpConnectFailed` (line 124). -/
def raceError : Option Addr → HttpError
  | some _ => .tcpConnectFailed
  | none => .noConnectionAvailable

/-- A run: a list of scheduler choices, all enabled. -/
def Race.run (up : Addr → Bool) (r : Race) : List RaceStep → Option Race
  | [] => some r
  | s :: l => (r.step up s).bind fun r => r.run up l

end Am
