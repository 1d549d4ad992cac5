import Verif.Model.Command
/-! # cmd/src/command.rs:17-20: standard input as bytes -/
namespace Am

/-- std `Lines::next`: a line feed at the end of the line is removed, and then a carriage return at its end. -/
def chopEnd (s : Str) : Str :=
  if s.getLast? = some '\n' then
    if s.dropLast.getLast? = some '\r' then s.dropLast.dropLast else s.dropLast
  else s

/-- std `BufRead::read_line`: the bytes of a line must be UTF-8, or else they are dropped and an error is returned (command.rs:20 ignores it). -/
def lineItem (bs : List UInt8) : Input :=
  match fromUtf8 bs with
  | some s => .line (chopEnd s)
  | none => .bad

/-- command.rs:17-20 `stdin().lock().lines()`: std `read_until` collects bytes up to and including the next line feed (byte 10) or up to the end of the
input; nothing collected means the end. `cur` is what has been collected. Reading itself is assumed not to fail. -/
def stdinLines (cur : List UInt8) : List UInt8 → List Input
  | [] => if cur = [] then [] else [lineItem cur]
  | b :: rest => if b = 10 then lineItem (cur ++ [10]) :: stdinLines [] rest else stdinLines (cur ++ [b]) rest

/-- command.rs:16-30 `repl` on the bytes of standard input. -/
def amRepl {F : Type} [Rt F] (net : Net) (bytes : List UInt8) : Res Unit × St F := repl net (stdinLines [] bytes) [] []

end Am
