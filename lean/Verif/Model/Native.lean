import Verif.Model.Value
/-! # lib/src/native.rs and the template pattern shared with evaluator.rs:169 -/
namespace Am

/-- One match of the regex `\{\s*([a-zA-Z_][a-zA-Z0-9_]*)\s*\}` at the start of the text (native.rs:27,
evaluator.rs:169): the name and the text after the match. The three character classes are disjoint, so the greedy
match is the only one. -/
def matchAt : Str → Option (Str × Str)
  | '{' :: cs =>
    match cs.dropWhile isWs with
    | c :: r =>
      if isWordStart c then
        match (r.dropWhile isWordChar).dropWhile isWs with
        | '}' :: rest => some (c :: r.takeWhile isWordChar, rest)
        | _ => none
      else none
    | [] => none
  | _ => none

/-- `Regex::find_iter`, with the range of each match: leftmost, non-overlapping. `pos` is the position of the text in
the whole; the first argument is fuel (the text's length suffices). -/
def findAll : Nat → Nat → Str → List (Str × Nat × Nat)
  | 0, _, _ => []
  | _, _, [] => []
  | n + 1, pos, c :: cs =>
    match matchAt (c :: cs) with
    | some (name, rest) =>
      let stop := pos + ((c :: cs).length - rest.length)
      (name, pos, stop) :: findAll n stop rest
    | none => findAll n (pos + 1) cs

/-- All matches in a text. -/
def findTemplates (s : Str) : List (Str × Nat × Nat) := findAll s.length 0 s

/-- `String::replace_range(start..stop, with)`. Positions count characters instead of bytes. -/
def replaceRange (s : Str) (start stop : Nat) (w : Str) : Str := s.take start ++ w ++ s.drop stop

/-- native.rs:36-38 / evaluator.rs:175-181: replace the ranges, last one first. -/
def replaceAll (s : Str) : List ((Nat × Nat) × Str) → Str
  | [] => s
  | ((a, b), w) :: l => replaceAll (replaceRange s a b w) l

variable {F : Type} [Rt F]

/-- native.rs:23-45 `format`. -/
def nativeFormat : List (Value F) → Res (Value F)
  | .str s :: args =>
    let ranges := ((findTemplates s).map (·.2)).reverse
    let variables := args.reverse
    if variables.length ≠ ranges.length then
      .err (c!"wrong number of arguments. got=" ++ natStr variables.length ++ c!", want=" ++ natStr ranges.length)
    else .ok (.str (replaceAll s (ranges.zip (variables.map Value.display))))
  | [] => .err c!"function length need a parameter"
  | _ :: _ => .err c!"first parameter must be a string"

/-- native.rs:47-60 `length`: bytes of a string, items of an array, entries of a map. -/
def nativeLength : List (Value F) → Res (Value F)
  | [.str s] => .ok (.int (Int64.ofNat (utf8 s).length))
  | [.arr items] => .ok (.int (Int64.ofNat items.length))
  | [.map pairs] => .ok (.int (Int64.ofNat pairs.length))
  | [v] => .err (c!"function length not supported type " ++ v.debug)
  | vs => .err (c!"wrong number of arguments. got=" ++ natStr vs.length ++ c!", want=1")

/-- native.rs:62-74 `append`. -/
def nativeAppend : List (Value F) → Res (Value F)
  | .arr items :: args => .ok (.arr (items ++ args))
  | [] => .err c!"function length need a parameter"
  | _ :: _ => .err c!"first parameter must be a array"

end Am
