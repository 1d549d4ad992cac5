import Verif.Model.Evaluator
/-!
# Texts as bytes: slicing and replacing by position

`Model/Native.lean`, `Model/Evaluator.lean` and `Model/Http.lean` describe the same functions on characters. A Rust `str` is UTF-8, its positions are
byte positions, and `&s[a..b]` and `replace_range` panic when a position is not between two characters.
-/
namespace Am

/-- std `str::is_char_boundary`. -/
def boundary (s : List UInt8) (i : Nat) : Bool :=
  if i = 0 then true
  else
    match s[i]? with
    | some b => decide (b.toNat < 128 ∨ 192 ≤ b.toNat)
    | none => i == s.length

/-- std `&s[a..b]`. -/
def slice (s : List UInt8) (a b : Nat) : Res (List UInt8) :=
  if a ≤ b && boundary s a && boundary s b then .ok ((s.take b).drop a) else .panic

/-- std `String::replace_range(a..b, w)`. -/
def replaceBytes (s : List UInt8) (a b : Nat) (w : List UInt8) : Res (List UInt8) :=
  if a ≤ b && boundary s a && boundary s b then .ok (s.take a ++ w ++ s.drop b) else .panic

/-- The text of a `str` made of these bytes; `panic` stands for bytes that are no UTF-8, which a `str` never contains. -/
def strOf (bs : List UInt8) : Res Str :=
  match fromUtf8 bs with
  | some s => .ok s
  | none => .panic

/-- The byte position of the `n`-th character. -/
def bytePos (s : Str) (n : Nat) : Nat := (utf8 (s.take n)).length

/-- `Match::range` of the matches of the template pattern (native.rs:28-30, evaluator.rs:170-172): byte positions. -/
def findRanges (s : Str) : List (Nat × Nat) := (findTemplates s).map fun m => (bytePos s m.2.1, bytePos s m.2.2)

/-- evaluator.rs:172: `m.as_str()[1..m.as_str().len() - 1].trim()`, for a match at the bytes `a..b`. -/
def templateName (s : List UInt8) (a b : Nat) : Res Str := do
  let m ← slice s a b
  if m.length = 0 then .panic
  else do
    let t ← slice m 1 (m.length - 1)
    let t ← strOf t
    pure (trim t)

/-- native.rs:36-38, evaluator.rs:175-181: the replacements one after the other. -/
def replaceEach (s : List UInt8) : List ((Nat × Nat) × List UInt8) → Res (List UInt8)
  | [] => .ok s
  | ((a, b), w) :: l => do
    let s ← replaceBytes s a b w
    replaceEach s l

variable {F : Type} [Rt F]

/-- evaluator.rs:172 for every match. -/
def templateNames (s : List UInt8) : List (Nat × Nat) → Res (List (Str × Nat × Nat))
  | [] => .ok []
  | (a, b) :: l => do
    let n ← templateName s a b
    let ns ← templateNames s l
    pure ((n, a, b) :: ns)

/-- evaluator.rs:169-182: the message sent, as bytes. -/
def renderBytes (ctx : Context F) (message : Str) : Res (List UInt8) := do
  let ranges ← templateNames (utf8 message) (findRanges message)
  replaceEach (utf8 message) (ranges.reverse.map fun m => (m.2, utf8 (varText ctx m.1)))

/-- native.rs:23-45 `format`, as bytes. -/
def formatBytes (s : Str) (args : List (Value F)) : Res (List UInt8) :=
  let ranges := (findRanges s).reverse
  let variables := args.reverse
  if variables.length ≠ ranges.length then
    .err (c!"wrong number of arguments. got=" ++ natStr variables.length ++ c!", want=" ++ natStr ranges.length)
  else replaceEach (utf8 s) (ranges.zip (variables.map fun v => utf8 v.display))

/-- url.rs:10-39 `From<&str> for Url`; `str::find` of an ASCII character is the position of its byte. -/
def Url.ofBytes (s : Str) : Res Url :=
  let scheme := Scheme.ofStr (sepFirst s)
  match cutSep s with
  | none => .ok ⟨scheme, c!"localhost", scheme.port, c!"/"⟩
  | some (_, r) => do
    let str := utf8 (sepFirst r)
    let (host, path) ←
      match str.findIdx? (· == 47) with
      | some i => do
        let h ← slice str 0 i
        let p ← slice str i str.length
        pure (h, p)
      | none => pure (str, utf8 c!"/")
    let (host, port) ←
      match host.findIdx? (· == 58) with
      | some j => do
        let h ← slice host 0 j
        let p ← slice host (j + 1) host.length
        let p ← strOf p
        pure (h, parseUnsigned 65535 p)
      | none => pure (host, none)
    let host ← strOf host
    let path ← strOf path
    pure ⟨scheme, host, port.getD scheme.port, path⟩

/-- request.rs:67-72: one multipart part; `value[1..value.len()]` after `starts_with('@')`. -/
def partBytes (p : Str × Str) : Res Part := do
  let value := trim p.2
  if value.head? = some '@' then do
    let v ← slice (utf8 value) 1 (utf8 value).length
    let v ← strOf v
    pure (.file (trim p.1) v)
  else pure (.text (trim p.1) value)

end Am
