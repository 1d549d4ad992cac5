import Verif.Spec.Basic
import Verif.Spec.Values
import Verif.Spec.Template
/-!
# What scripts mean

The meaning of the language as rules, independent of the evaluator: `Runs net e s r s'` says that evaluating `e` in the state `s` ends
with the outcome `r` in the state `s'`. `Res` is used as the set of outcomes: a value, an error message, a crash (`panic`), or no end
(`hang`). Given from elsewhere: how a value and an expression print (`display`, `debug`), what a message sent to the network brings
back (`send`) and the map made of a response (`Response.toMap`).
-/
namespace Am.Spec
open Am
variable {F : Type} [Rt F]

/-! ## Values -/

/-- A value in which the keys of every map, at every depth, are distinct: what a `HashMap` can hold. -/
inductive Proper : Value F → Prop
  | null : Proper .null
  | int (i : Int64) : Proper (.int i)
  | float (f : F) : Proper (.float f)
  | bool (b : Bool) : Proper (.bool b)
  | str (s : Str) : Proper (.str s)
  | arr {items : List (Value F)} : (∀ v ∈ items, Proper v) → Proper (.arr items)
  | map {pairs : List (Str × Value F)} : (pairs.map Prod.fst).Nodup → (∀ k v, (k, v) ∈ pairs → Proper v) → Proper (.map pairs)

/-- Equal values: of the same kind and with the same content; arrays item by item, maps key by key. -/
inductive Same : Value F → Value F → Prop
  | null : Same .null .null
  | int (i : Int64) : Same (.int i) (.int i)
  | float {x y : F} : Rt.feq x y = true → Same (.float x) (.float y)
  | bool (b : Bool) : Same (.bool b) (.bool b)
  | str (s : Str) : Same (.str s) (.str s)
  | arr {l r : List (Value F)} : l.length = r.length → (∀ (i : Nat) a b, l[i]? = some a → r[i]? = some b → Same a b) → Same (.arr l) (.arr r)
  | map {l r : List (Str × Value F)} : (∀ k, (amGet k l).isSome = (amGet k r).isSome) →
      (∀ k a b, amGet k l = some a → amGet k r = some b → Same a b) → Same (.map l) (.map r)

/-- How two values are ordered: integers by size, floats as the machine compares them, an integer and a float as two floats, texts by
character codes. No other two values are ordered. -/
inductive Orders : Value F → Value F → Ordering → Prop
  | intLt {a b : Int64} : a.toInt < b.toInt → Orders (.int a) (.int b) .lt
  | intEq (a : Int64) : Orders (.int a) (.int a) .eq
  | intGt {a b : Int64} : b.toInt < a.toInt → Orders (.int a) (.int b) .gt
  | float {a b : F} {o : Ordering} : Rt.fcmp a b = some o → Orders (.float a) (.float b) o
  | intFloat {a : Int64} {b : F} {o : Ordering} : Rt.fcmp (Rt.fofInt a) b = some o → Orders (.int a) (.float b) o
  | floatInt {a : F} {b : Int64} {o : Ordering} : Rt.fcmp a (Rt.fofInt b) = some o → Orders (.float a) (.int b) o
  | strLt {a b : Str} : TextLt a b → Orders (.str a) (.str b) .lt
  | strEq (a : Str) : Orders (.str a) (.str a) .eq
  | strGt {a b : Str} : TextLt b a → Orders (.str a) (.str b) .gt

/-- What a comparison says; `none` for an operator that is no comparison. -/
def comparison (k : Kind) (a b : Value F) : Option Prop :=
  match k with
  | .Lt => some (Orders a b .lt)
  | .Gt => some (Orders a b .gt)
  | .Le => some (Orders a b .lt ∨ Orders a b .eq)
  | .Ge => some (Orders a b .gt ∨ Orders a b .eq)
  | .Eq => some (Same a b)
  | .Ne => some (¬Same a b)
  | _ => none

/-- Integer operators, mathematically. -/
def IntOp (F : Type) [Rt F] (k : Kind) (a b : Int64) (out : Res (Value F)) : Prop :=
  let broken := b.toInt = 0 ∨ (a.toInt = -9223372036854775808 ∧ b.toInt = -1)
  let inRange := 0 ≤ b.toInt ∧ b.toInt < 64
  match k with
  | .Add => Arith (Rt.checks F) (a.toInt + b.toInt) out
  | .Sub => Arith (Rt.checks F) (a.toInt - b.toInt) out
  | .Mul => Arith (Rt.checks F) (a.toInt * b.toInt) out
  | .Div => (broken ∧ out = .panic) ∨ (¬broken ∧ ∃ q r : Int64, out = .ok (.int q) ∧ Truncated a.toInt b.toInt q.toInt r.toInt)
  | .Rem => (broken ∧ out = .panic) ∨ (¬broken ∧ ∃ q r : Int64, out = .ok (.int r) ∧ Truncated a.toInt b.toInt q.toInt r.toInt)
  | .Bx => ∃ c, out = .ok (.int c) ∧ ∀ n, bit c n = (bit a n != bit b n)
  | .Bo => ∃ c, out = .ok (.int c) ∧ ∀ n, bit c n = (bit a n || bit b n)
  | .Ba => ∃ c, out = .ok (.int c) ∧ ∀ n, bit c n = (bit a n && bit b n)
  | .Sl => (¬inRange ∧ Rt.checks F = true ∧ out = .panic) ∨ ((inRange ∨ Rt.checks F = false) ∧ ∃ (k : Nat) (j : Int) (c : Int64),
      k < 64 ∧ (k : Int) = b.toInt + j * 64 ∧ out = .ok (.int c) ∧ Wraps c.toInt (a.toInt * 2 ^ k))
  | .Sr => (¬inRange ∧ Rt.checks F = true ∧ out = .panic) ∨ ((inRange ∨ Rt.checks F = false) ∧ ∃ (k : Nat) (j : Int) (c : Int64),
      k < 64 ∧ (k : Int) = b.toInt + j * 64 ∧ out = .ok (.int c) ∧ c.toInt * 2 ^ k ≤ a.toInt ∧ a.toInt < (c.toInt + 1) * 2 ^ k)
  | _ => False

/-- Floating point operators. -/
def floatOp (k : Kind) (x y : F) : Option F :=
  match k with
  | .Add => some (Rt.fadd x y)
  | .Sub => some (Rt.fsub x y)
  | .Mul => some (Rt.fmul x y)
  | .Div => some (Rt.fdiv x y)
  | .Rem => some (Rt.frem x y)
  | _ => none

/-- The sign of an operator on values. -/
def sign : Kind → Option Str
  | .Add => some c!"+" | .Sub => some c!"-" | .Mul => some c!"*" | .Div => some c!"/" | .Rem => some c!"%"
  | .Bx => some c!"^" | .Bo => some c!"|" | .Ba => some c!"&" | .Sl => some c!"<<" | .Sr => some c!">>"
  | _ => none

/-- The operator does not fit the operands. -/
def unfit (text : Str) (a b : Value F) : Res (Value F) :=
  .err (c!"type mismatch: " ++ a.display ++ c!" " ++ text ++ c!" " ++ b.display)

/-- An arithmetic operator on two values: integers with integers; numbers of which at least one is a float as floats; texts under `+`.
Everything else does not fit. -/
def Computes (k : Kind) (text : Str) (a b : Value F) (out : Res (Value F)) : Prop :=
  let floats (x y : F) := match floatOp k x y with
    | some z => out = .ok (.float z)
    | none => out = unfit text a b
  match a, b with
  | .int x, .int y => IntOp F k x y out
  | .float x, .float y => floats x y
  | .int x, .float y => floats (Rt.fofInt x) y
  | .float x, .int y => floats x (Rt.fofInt y)
  | .str x, .str y => (k = .Add ∧ out = .ok (.str (x ++ y))) ∨ (k ≠ .Add ∧ out = unfit text a b)
  | a, b => out = unfit text a b

/-- An operator that evaluates both operands: an arithmetic one or a comparison. -/
inductive Operates : Kind → Value F → Value F → Res (Value F) → Prop
  | computes {k : Kind} {text : Str} {a b : Value F} {out : Res (Value F)} : sign k = some text → Computes k text a b out → Operates k a b out
  | compares {k : Kind} {p : Prop} {a b : Value F} {r : Bool} : comparison k a b = some p → (r = true ↔ p) → Operates k a b (.ok (.bool r))

/-- The operator evaluates both operands. -/
def Strict (k : Kind) : Prop :=
  k = .Add ∨ k = .Sub ∨ k = .Mul ∨ k = .Div ∨ k = .Rem ∨ k = .Bx ∨ k = .Bo ∨ k = .Ba ∨ k = .Sl ∨ k = .Sr ∨
  k = .Lt ∨ k = .Gt ∨ k = .Le ∨ k = .Ge ∨ k = .Eq ∨ k = .Ne

/-- The values that count as false. -/
def CountsFalse (v : Value F) : Prop := v = .bool false ∨ v = .null

/-- A unary operator on a value. -/
inductive Negates : Token → Value F → Res (Value F) → Prop
  | notInt {t : Token} {a c : Int64} : t.kind = .Not → (∀ n, n < 64 → bit c n = !bit a n) → Negates t (.int a) (.ok (.int c))
  | notFalse {t : Token} {v : Value F} : t.kind = .Not → CountsFalse v → Negates t v (.ok (.bool true))
  | notTrue {t : Token} {v : Value F} : t.kind = .Not → ¬CountsFalse v → (∀ a, v ≠ .int a) → Negates t v (.ok (.bool false))
  | minusInt {t : Token} {a : Int64} {out : Res (Value F)} : t.kind = .Sub → Arith (Rt.checks F) (-a.toInt) out → Negates t (.int a) out
  | minusFloat {t : Token} {f : F} : t.kind = .Sub → Negates t (.float f) (.ok (.float (Rt.fneg f)))
  | unknown {t : Token} {v : Value F} : t.kind ≠ .Not → (t.kind = .Sub → (∀ a, v ≠ .int a) ∧ ∀ f, v ≠ .float f) →
      Negates t v (.err (c!"unknown operator: " ++ t.literal ++ v.debug))

/-- The place in an array that an integer stands for: negative ones count from 2^64, far beyond the end of an array. -/
def place (i : Int64) : Nat := (if i.toInt < 0 then i.toInt + 18446744073709551616 else i.toInt).toNat

/-- `a[b]`. -/
inductive Indexes : Value F → Value F → Res (Value F) → Prop
  | item {items : List (Value F)} {i : Int64} {v : Value F} : items[place i]? = some v → Indexes (.arr items) (.int i) (.ok v)
  | beyond {items : List (Value F)} {i : Int64} : items.length ≤ place i → Indexes (.arr items) (.int i) (.ok .null)
  | entry {pairs : List (Str × Value F)} {key v : Value F} : amGet key.display pairs = some v → Indexes (.map pairs) key (.ok v)
  | absent {pairs : List (Str × Value F)} {key : Value F} : amGet key.display pairs = none → Indexes (.map pairs) key (.ok .null)
  | unfit {a b : Value F} : (∀ pairs, a ≠ .map pairs) → (∀ items i, ¬(a = .arr items ∧ b = .int i)) →
      Indexes a b (.err (c!"index operator not support: " ++ a.debug))

/-- `a.name`. -/
inductive Fields : Value F → Str → Res (Value F) → Prop
  | entry {pairs : List (Str × Value F)} {name : Str} {v : Value F} : amGet name pairs = some v → Fields (.map pairs) name (.ok v)
  | absent {pairs : List (Str × Value F)} {name : Str} : amGet name pairs = none → Fields (.map pairs) name (.ok .null)
  | unfit {a : Value F} {name : Str} : (∀ pairs, a ≠ .map pairs) → Fields a name (.err (c!"field operator not support: " ++ a.debug))

/-! ## Built-in functions -/

/-- The text made from a template and values. -/
inductive Formats : List (Value F) → Res Str → Prop
  | filled {t : Str} {ps : List Piece} {args : List (Value F)} : Pieces t ps → args.length = holes ps →
      Formats (.str t :: args) (.ok (fillWith ps (args.map Value.display)))
  | arity {t : Str} {ps : List Piece} {args : List (Value F)} : Pieces t ps → args.length ≠ holes ps →
      Formats (.str t :: args) (.err (c!"wrong number of arguments. got=" ++ natStr args.length ++ c!", want=" ++ natStr (holes ps)))
  | nothing : Formats [] (.err c!"function length need a parameter")
  | noText {v : Value F} {args : List (Value F)} : (∀ t, v ≠ .str t) → Formats (v :: args) (.err c!"first parameter must be a string")

/-- `n` is the size of a value: bytes, items or keys. -/
inductive Size : Value F → Nat → Prop
  | str (s : Str) : Size (.str s) (utf8 s).length
  | arr (items : List (Value F)) : Size (.arr items) items.length
  | map (pairs : List (Str × Value F)) : Size (.map pairs) pairs.length

/-- The names of the built-in functions. -/
def builtins : List Str := [c!"print", c!"println", c!"format", c!"length", c!"append"]

/-- A call of a built-in function, with its outcome and the text it prints. -/
inductive Builtin : Str → List (Value F) → Res (Value F) → Str → Prop
  | format {args : List (Value F)} {t : Str} : Formats args (.ok t) → Builtin c!"format" args (.ok (.str t)) []
  | print {args : List (Value F)} {t : Str} : Formats args (.ok t) → Builtin c!"print" args (.ok .null) t
  | println {args : List (Value F)} {t : Str} : Formats args (.ok t) → Builtin c!"println" args (.ok .null) (t ++ c!"\n")
  | badFormat {name : Str} {args : List (Value F)} {e : Str} : name ∈ [c!"format", c!"print", c!"println"] → Formats args (.err e) →
      Builtin name args (.err e) []
  | length {v : Value F} {n : Nat} : Size v n → Builtin c!"length" [v] (.ok (.int (Int64.ofNat n))) []
  | badLength {v : Value F} : (∀ n, ¬Size v n) → Builtin c!"length" [v] (.err (c!"function length not supported type " ++ v.debug)) []
  | lengthArity {args : List (Value F)} : args.length ≠ 1 →
      Builtin c!"length" args (.err (c!"wrong number of arguments. got=" ++ natStr args.length ++ c!", want=1")) []
  | append {items args : List (Value F)} : Builtin c!"append" (.arr items :: args) (.ok (.arr (items ++ args))) []
  | appendNothing : Builtin c!"append" [] (.err c!"function length need a parameter") []
  | badAppend {v : Value F} {args : List (Value F)} : (∀ items, v ≠ .arr items) →
      Builtin c!"append" (v :: args) (.err c!"first parameter must be a array") []
  | unknown {name : Str} {args : List (Value F)} : name ∉ builtins → Builtin name args (.err (c!"function " ++ name ++ c!" not found")) []

/-! ## Expressions -/

/-- The outcome is no value, and `r` is the same outcome. -/
inductive Stops {α β : Type} : Res α → Res β → Prop
  | err (e : Str) : Stops (.err e) (.err e)
  | panic : Stops .panic .panic
  | hang : Stops .hang .hang

/-- Keys and values of a map literal, in the order they are written. -/
def flatten : List (Expr F × Expr F) → List (Expr F)
  | [] => []
  | (k, v) :: l => k :: v :: flatten l

/-- Key texts and values, from keys and values in turn. -/
def keyed : List (Value F) → List (Str × Value F)
  | k :: v :: l => (k.display, v) :: keyed l
  | _ => []

/-- The state in which the variable `x` is `v`. -/
def assign (x : Str) (v : Value F) (s : St F) : St F := { s with ctx := { s.ctx with inner := amInsert x v s.ctx.inner } }

/-- The text of a variable. -/
def textOf (vars : List (Str × Value F)) (x : Str) : Str :=
  match amGet x vars with
  | some v => v.display
  | none => c!"null"

/-- What an operand of an assert stands for: its value, or null when it ends with an error. -/
inductive Operand : Res (Value F) → Value F → Prop
  | value (v : Value F) : Operand (.ok v) v
  | error (e : Str) : Operand (.err e) .null

mutual
/-- The expression, evaluated in the first state, ends with the outcome in the second state. -/
inductive Runs (net : Net) : Expr F → St F → Res (Value F) → St F → Prop
  | int (i : Int64) (s : St F) : Runs net (.int i) s (.ok (.int i)) s
  | float (f : F) (s : St F) : Runs net (.float f) s (.ok (.float f)) s
  | bool (b : Bool) (s : St F) : Runs net (.bool b) s (.ok (.bool b)) s
  | str (t : Str) (s : St F) : Runs net (.str t) s (.ok (.str t)) s
  | arr {es : List (Expr F)} {vs : List (Value F)} {s s' : St F} : RunsAll net es s (.ok vs) s' → Runs net (.arr es) s (.ok (.arr vs)) s'
  | arrStops {es : List (Expr F)} {x : Res (List (Value F))} {r : Res (Value F)} {s s' : St F} : RunsAll net es s x s' → Stops x r →
      Runs net (.arr es) s r s'
  | map {ps : List (Expr F × Expr F)} {vs : List (Value F)} {s s' : St F} : RunsAll net (flatten ps) s (.ok vs) s' →
      Runs net (.map ps) s (.ok (.map (amExtend [] (keyed vs)))) s'
  | mapStops {ps : List (Expr F × Expr F)} {x : Res (List (Value F))} {r : Res (Value F)} {s s' : St F} :
      RunsAll net (flatten ps) s x s' → Stops x r → Runs net (.map ps) s r s'
  | index {l i : Expr F} {a b : Value F} {r : Res (Value F)} {s s' : St F} : RunsAll net [l, i] s (.ok [a, b]) s' → Indexes a b r →
      Runs net (.index l i) s r s'
  | indexStops {l i : Expr F} {x : Res (List (Value F))} {r : Res (Value F)} {s s' : St F} : RunsAll net [l, i] s x s' → Stops x r →
      Runs net (.index l i) s r s'
  | field {l : Expr F} {n : Str} {a : Value F} {r : Res (Value F)} {s s' : St F} : Runs net l s (.ok a) s' → Fields a n r →
      Runs net (.field l n) s r s'
  | fieldStops {l : Expr F} {n : Str} {x r : Res (Value F)} {s s' : St F} : Runs net l s x s' → Stops x r → Runs net (.field l n) s r s'
  | ident {n : Str} {v : Value F} {s : St F} : amGet n s.ctx.inner = some v → Runs net (.ident n) s (.ok v) s
  | unbound {n : Str} {s : St F} : amGet n s.ctx.inner = none → Runs net (.ident n) s (.err (c!"ident:" ++ n ++ c!" not found")) s
  | letE {n : Str} {e : Expr F} {v : Value F} {s s' : St F} : Runs net e s (.ok v) s' → Runs net (.letE n e) s (.ok v) (assign n v s')
  | letStops {n : Str} {e : Expr F} {x r : Res (Value F)} {s s' : St F} : Runs net e s x s' → Stops x r → Runs net (.letE n e) s r s'
  | unary {t : Token} {e : Expr F} {v : Value F} {r : Res (Value F)} {s s' : St F} : Runs net e s (.ok v) s' → Negates t v r →
      Runs net (.unary t e) s r s'
  | unaryStops {t : Token} {e : Expr F} {x r : Res (Value F)} {s s' : St F} : Runs net e s x s' → Stops x r → Runs net (.unary t e) s r s'
  | binary {t : Token} {l r : Expr F} {a b : Value F} {out : Res (Value F)} {s s' : St F} : Strict t.kind →
      RunsAll net [l, r] s (.ok [a, b]) s' → Operates t.kind a b out → Runs net (.binary t l r) s out s'
  | binaryStops {t : Token} {l r : Expr F} {x : Res (List (Value F))} {out : Res (Value F)} {s s' : St F} : Strict t.kind →
      RunsAll net [l, r] s x s' → Stops x out → Runs net (.binary t l r) s out s'
  | orLeft {t : Token} {l r : Expr F} {a : Value F} {s s' : St F} : t.kind = .Lo → Runs net l s (.ok a) s' → ¬CountsFalse a →
      Runs net (.binary t l r) s (.ok a) s'
  | orRight {t : Token} {l r : Expr F} {a : Value F} {out : Res (Value F)} {s s1 s' : St F} : t.kind = .Lo → Runs net l s (.ok a) s1 →
      CountsFalse a → Runs net r s1 out s' → Runs net (.binary t l r) s out s'
  | andLeft {t : Token} {l r : Expr F} {a : Value F} {s s' : St F} : t.kind = .La → Runs net l s (.ok a) s' → CountsFalse a →
      Runs net (.binary t l r) s (.ok a) s'
  | andRight {t : Token} {l r : Expr F} {a : Value F} {out : Res (Value F)} {s s1 s' : St F} : t.kind = .La → Runs net l s (.ok a) s1 →
      ¬CountsFalse a → Runs net r s1 out s' → Runs net (.binary t l r) s out s'
  | logicStops {t : Token} {l r : Expr F} {x out : Res (Value F)} {s s' : St F} : (t.kind = .Lo ∨ t.kind = .La) → Runs net l s x s' →
      Stops x out → Runs net (.binary t l r) s out s'
  | noOperator {t : Token} {l r : Expr F} {s : St F} : ¬Strict t.kind → t.kind ≠ .Lo → t.kind ≠ .La →
      Runs net (.binary t l r) s (.err (c!"not support operator: " ++ l.display ++ c!" " ++ t.literal ++ c!" " ++ r.display)) s
  | paren {e : Expr F} {r : Res (Value F)} {s s' : St F} : Runs net e s r s' → Runs net (.paren e) s r s'
  | ifThen {c : Expr F} {t e : List (Expr F)} {v : Value F} {r : Res (Value F)} {s s1 s' : St F} : Runs net c s (.ok v) s1 →
      ¬CountsFalse v → RunsBlock net .null t s1 r s' → Runs net (.ifE c t e) s r s'
  | ifElse {c : Expr F} {t e : List (Expr F)} {v : Value F} {r : Res (Value F)} {s s1 s' : St F} : Runs net c s (.ok v) s1 →
      CountsFalse v → RunsBlock net .null e s1 r s' → Runs net (.ifE c t e) s r s'
  | ifStops {c : Expr F} {t e : List (Expr F)} {x r : Res (Value F)} {s s' : St F} : Runs net c s x s' → Stops x r →
      Runs net (.ifE c t e) s r s'
  | builtin {f : Str} {args : List (Expr F)} {vs : List (Value F)} {r : Res (Value F)} {t : Str} {s s' : St F} :
      RunsAll net args s (.ok vs) s' → amGet f s'.ctx.requests = none → Builtin f vs r t →
      Runs net (.call f args) s r { s' with out := s'.out ++ t }
  | request {f message : Str} {asserts : List (Expr F)} {args : List (Expr F)} {vs : List (Value F)} {r : Res (Value F)} {s s1 s' : St F} :
      RunsAll net args s (.ok vs) s1 → amGet f s1.ctx.requests = some (message, asserts) → Exchanges net f message asserts s1 r s' →
      Runs net (.call f args) s r s'
  | callStops {f : Str} {args : List (Expr F)} {x : Res (List (Value F))} {r : Res (Value F)} {s s' : St F} : RunsAll net args s x s' →
      Stops x r → Runs net (.call f args) s r s'
/-- The expressions one after the other, up to the first without a value. -/
inductive RunsAll (net : Net) : List (Expr F) → St F → Res (List (Value F)) → St F → Prop
  | nil (s : St F) : RunsAll net [] s (.ok []) s
  | cons {e : Expr F} {es : List (Expr F)} {v : Value F} {vs : List (Value F)} {s s1 s' : St F} : Runs net e s (.ok v) s1 →
      RunsAll net es s1 (.ok vs) s' → RunsAll net (e :: es) s (.ok (v :: vs)) s'
  | head {e : Expr F} {es : List (Expr F)} {x : Res (Value F)} {r : Res (List (Value F))} {s s' : St F} : Runs net e s x s' → Stops x r →
      RunsAll net (e :: es) s r s'
  | tail {e : Expr F} {es : List (Expr F)} {v : Value F} {x r : Res (List (Value F))} {s s1 s' : St F} : Runs net e s (.ok v) s1 →
      RunsAll net es s1 x s' → Stops x r → RunsAll net (e :: es) s r s'
/-- A block whose value so far is the given one. -/
inductive RunsBlock (net : Net) : Value F → List (Expr F) → St F → Res (Value F) → St F → Prop
  | nil (v : Value F) (s : St F) : RunsBlock net v [] s (.ok v) s
  | cons {v w : Value F} {e : Expr F} {es : List (Expr F)} {r : Res (Value F)} {s s1 s' : St F} : Runs net e s (.ok w) s1 →
      RunsBlock net w es s1 r s' → RunsBlock net v (e :: es) s r s'
  | stops {v : Value F} {e : Expr F} {es : List (Expr F)} {x r : Res (Value F)} {s s' : St F} : Runs net e s x s' → Stops x r →
      RunsBlock net v (e :: es) s r s'
/-- A request: the message is filled in and sent, the asserts are checked with the response alone in view, a record is kept, and the
value is the response as a map. -/
inductive Exchanges (net : Net) : Str → Str → List (Expr F) → St F → Res (Value F) → St F → Prop
  | sendStops {f message : Str} {asserts : List (Expr F)} {ps : List Piece} {text : Str} {r : Res (Value F)} {s : St F} :
      Pieces message ps → text = fillBy (textOf s.ctx.inner) ps → Stops (send net s.sent text) r →
      Exchanges net f message asserts s r { s with sent := s.sent ++ [text] }
  | mapStops {f message : Str} {asserts : List (Expr F)} {ps : List Piece} {text : Str} {req : Request} {resp : Response} {time : Time}
      {error : Str} {r : Res (Value F)} {s : St F} :
      Pieces message ps → text = fillBy (textOf s.ctx.inner) ps → send net s.sent text = .ok (req, resp, time, error) →
      Stops (resp.toMap (F := F)) r → Exchanges net f message asserts s r { s with sent := s.sent ++ [text] }
  | assertStops {f message : Str} {asserts : List (Expr F)} {ps : List Piece} {text : Str} {req : Request} {resp : Response} {time : Time}
      {error : Str} {map : List (Str × Value F)} {x : Res (List Assert)} {r : Res (Value F)} {s s' : St F} :
      Pieces message ps → text = fillBy (textOf s.ctx.inner) ps → send net s.sent text = .ok (req, resp, time, error) →
      resp.toMap = .ok map → Checks net asserts ⟨⟨map, [], []⟩, s.sent ++ [text], s.out⟩ x s' → Stops x r →
      Exchanges net f message asserts s r { s' with ctx := s.ctx }
  | done {f message : Str} {asserts : List (Expr F)} {ps : List Piece} {text : Str} {req : Request} {resp : Response} {time : Time}
      {error : Str} {map : List (Str × Value F)} {as : List Assert} {s s' : St F} :
      Pieces message ps → text = fillBy (textOf s.ctx.inner) ps → send net s.sent text = .ok (req, resp, time, error) →
      resp.toMap = .ok map → Checks net asserts ⟨⟨map, [], []⟩, s.sent ++ [text], s.out⟩ (.ok as) s' →
      Exchanges net f message asserts s (.ok (.map s'.ctx.inner))
        { s' with ctx := { s.ctx with records := s.ctx.records ++ [⟨f, time, req, resp, as, error⟩] } }
/-- The asserts one after the other. One that is no operator is passed over; one whose operator is no comparison is evaluated and
recorded nowhere. -/
inductive Checks (net : Net) : List (Expr F) → St F → Res (List Assert) → St F → Prop
  | nil (s : St F) : Checks net [] s (.ok []) s
  | other {e : Expr F} {es : List (Expr F)} {r : Res (List Assert)} {s s' : St F} : (∀ t a b, e ≠ .binary t a b) → Checks net es s r s' →
      Checks net (e :: es) s r s'
  | leftStops {t : Token} {a b : Expr F} {es : List (Expr F)} {x : Res (Value F)} {r : Res (List Assert)} {s s' : St F} :
      Runs net a s x s' → (∀ e, x ≠ .err e) → Stops x r → Checks net (.binary t a b :: es) s r s'
  | rightStops {t : Token} {a b : Expr F} {es : List (Expr F)} {x y : Res (Value F)} {v : Value F} {r : Res (List Assert)} {s s1 s' : St F} :
      Runs net a s x s1 → Operand x v → Runs net b s1 y s' → (∀ e, y ≠ .err e) → Stops y r → Checks net (.binary t a b :: es) s r s'
  | restStops {t : Token} {a b : Expr F} {es : List (Expr F)} {x y : Res (Value F)} {v w : Value F} {z r : Res (List Assert)}
      {s s1 s2 s' : St F} : Runs net a s x s1 → Operand x v → Runs net b s1 y s2 → Operand y w → Checks net es s2 z s' → Stops z r →
      Checks net (.binary t a b :: es) s r s'
  | recorded {t : Token} {a b : Expr F} {es : List (Expr F)} {x y : Res (Value F)} {v w : Value F} {p : Prop} {result : Bool}
      {as : List Assert} {s s1 s2 s' : St F} : Runs net a s x s1 → Operand x v → Runs net b s1 y s2 → Operand y w →
      comparison t.kind v w = some p → (result = true ↔ p) → Checks net es s2 (.ok as) s' →
      Checks net (.binary t a b :: es) s
        (.ok (⟨a.display ++ c!" " ++ t.literal ++ c!" " ++ b.display, v.display, t.literal, w.display, result⟩ :: as)) s'
  | dropped {t : Token} {a b : Expr F} {es : List (Expr F)} {x y : Res (Value F)} {v w : Value F}
      {as : List Assert} {s s1 s2 s' : St F} : Runs net a s x s1 → Operand x v → Runs net b s1 y s2 → Operand y w →
      comparison t.kind v w = none → Checks net es s2 (.ok as) s' → Checks net (.binary t a b :: es) s (.ok as) s'
end

end Am.Spec
