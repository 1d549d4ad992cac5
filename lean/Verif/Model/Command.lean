import Verif.Model.Evaluator
import Verif.Model.Writer
import Verif.Model.Stat
/-! # cmd/src/command.rs (without `test`, see Model/TestRun.lean) and cmd/src/main.rs -/
namespace Am
variable {F : Type} [Rt F]

/-- `println!("{}", text)`. -/
def sayLine (text : Str) : M F Unit := M.modify fun s => { s with out := s.out ++ text ++ c!"\n" }

/-- command.rs:32-47 `eval`: the value or the error is printed; the context is returned in every case. -/
def evalText (net : Net) (text : Str) : M F Unit :=
  match (parse text : Res (Source F)) with
  | .ok src => do
    M.modify fun s => { s with ctx := s.ctx.extend src.requests }
    fun s =>
      match runBlock net src.exprs s with
      | (.ok v, s) => sayLine v.display s
      | (.err e, s) => sayLine e s
      | (.panic, s) => (.panic, s)
      | (.hang, s) => (.hang, s)
  | .err e => sayLine e
  | .panic => M.lift .panic
  | .hang => M.lift .hang

/-- One item of `stdin().lock().lines()` (command.rs:17): a line, or an I/O error such as invalid UTF-8. -/
inductive Input where
  | line (s : Str)
  | bad
  deriving DecidableEq, Repr

/-- command.rs:16-30 `repl`'s loop: when the input is exhausted `lines.next()` is `None` for ever, and the loop keeps
asking. -/
def replLoop (net : Net) : List Input → M F Unit
  | [] => M.lift .hang
  | .bad :: rest => replLoop net rest
  | .line text :: rest =>
    if text = c!"exit" then M.pure ()
    else if (trim text).isEmpty then replLoop net rest
    else do
      evalText net text
      replLoop net rest

/-- command.rs:16 `repl`. -/
def repl (net : Net) (input : List Input) (sent : List Str) (out : Str) : Res Unit × St F :=
  replLoop net input ⟨Context.new, sent, out⟩

/-! ## Source files (command.rs:163-182) -/

/-- What `read` finds at a path. -/
inductive Node where
  | dir (entries : List (Str × Node))
  /-- a regular file; `none` when it cannot be read as UTF-8 text -/
  | file (content : Option Str)
  /-- neither a directory nor a regular file -/
  | other

/-- `Path::extension() == Some("fan")` for the last component `name`: the part after the last dot is `fan` and there is
something before that dot (std `rsplit_file_at_dot`). -/
def isFan (name : Str) : Bool :=
  match name.reverse with
  | 'n' :: 'a' :: 'f' :: '.' :: _ :: _ => true
  | _ => false

/-- `entries.sort()` (command.rs:174): by file name (bytes, that is, scalar values); names in a directory are distinct. -/
def insertEntry {α : Type} (e : Str × α) : List (Str × α) → List (Str × α)
  | [] => [e]
  | x :: l => if strCmp e.1 x.1 == .gt then x :: insertEntry e l else e :: x :: l

/-- `entries.sort()`. -/
def sortEntries {α : Type} : List (Str × α) → List (Str × α)
  | [] => []
  | e :: l => insertEntry e (sortEntries l)

/-- The texts of the entries one after the other; `none` (an I/O error) if any of them fails. -/
def concatTexts : List (Str × Option Str) → Option Str
  | [] => some []
  | (_, t) :: l => do
    let a ← t
    let b ← concatTexts l
    pure (a ++ b)

mutual
/-- command.rs:169-182 `read`: the text appended for a path whose last component is `name`. The entries are read and then
put in order, which gives the same text as reading them in order. -/
def readNode (name : Str) : Node → Option Str
  | .dir entries => concatTexts (sortEntries (readEntries entries))
  | .file content => if isFan name then content else some []
  | .other => some []
termination_by structural n => n
/-- The entries of a directory with their texts. -/
def readEntries : List (Str × Node) → List (Str × Option Str)
  | [] => []
  | (n, d) :: l => (n, readNode n d) :: readEntries l
termination_by structural l => l
end

/-- command.rs:163-167 `read_to_string`: panics when `read` fails. -/
def readToString (name : Str) (n : Node) : Res Str :=
  match readNode name n with
  | some t => .ok t
  | none => .panic

/-! ## Record file names (command.rs:184-194) -/

/-- `{:06}`. -/
def pad6 (n : Nat) : Str := List.replicate (6 - (natStr n).length) '0' ++ natStr n

/-- command.rs:186: the file name of a thread; `pod` is the environment variable `POD`. -/
def recordFile (pod : Str) (thread : Nat) : Str := pod ++ pad6 thread

/-! ## main.rs -/

/-- `u64` multiplication (main.rs:82-83): overflow panics in checked builds and wraps otherwise. -/
def u64Mul (F : Type) [Rt F] (a b : Nat) : Res Nat :=
  if a * b < 2 ^ 64 then .ok (a * b) else if Rt.checks F then .panic else .ok (a * b % 2 ^ 64)

/-- main.rs:73-88 `parse_duration`, in seconds. -/
def parseDuration (F : Type) [Rt F] (s : Str) : Res Nat :=
  match parseUnsigned (2 ^ 64 - 1) s.dropLast with
  | none => .err (c!"Invalid number: " ++ s.dropLast)
  | some value =>
    match s.getLast? with
    | some 's' => .ok value
    | some 'm' => u64Mul F value 60
    | some 'h' => u64Mul F value 3600
    | some c => .err (c!"Unknown time unit: " ++ [c] ++ c!", supported units: s, m, h")
    | none => .err c!"Time unit needed, for example 1s or 2m"

/-- main.rs:61-64: with a duration the number is `u32::MAX`, without one the duration is `Duration::MAX` (`none`). -/
def limits (duration : Option Nat) (number : Nat) : Option Nat × Nat :=
  match duration with
  | some d => (some d, 4294967295)
  | none => (none, number)

end Am
