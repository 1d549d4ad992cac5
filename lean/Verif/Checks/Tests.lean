import Verif.Model.TestRun
import Verif.Model.Stream
/-!
# The repository's own unit tests, run on the model

These are no proofs of any property: they are a check of the transcription. Each block names the Rust test it copies. Tests of
`f64` arithmetic and tests that need the internet (httpbin.org, www.baidu.com) are run with a made-up runtime and a made-up
network or left out, as noted.
-/
set_option maxRecDepth 20000
namespace Am.Checks

/-- A made-up float type: thousandths. Only parsing, printing, sign, sum, difference and comparison are meaningful. -/
structure Milli where
  n : Int
  deriving DecidableEq

/-- Decimal text of a number of thousandths, without a point when it is whole (like `Display for f64`). -/
def Milli.text (m : Milli) : Str :=
  let a := m.n.natAbs
  let frac := a % 1000
  let ds := [digitChar (frac / 100), digitChar (frac / 10 % 10), digitChar (frac % 10)]
  (if m.n < 0 then c!"-" else []) ++ natStr (a / 1000) ++
    if frac = 0 then [] else '.' :: (ds.reverse.dropWhile (· == '0')).reverse

/-- Digits with one point; digits after the third place are dropped. -/
def Milli.parse (s : Str) : Option Milli :=
  match splitOnce '.' s with
  | some (a, b) =>
    if a.all isDigit && b.all isDigit && !(a.isEmpty && b.isEmpty) then
      some ⟨digitsVal a * 1000 + digitsVal ((b ++ c!"000").take 3)⟩
    else none
  | none => if s.all isDigit && !s.isEmpty then some ⟨digitsVal s * 1000⟩ else none

instance milliRt : Rt Milli where
  fadd a b := ⟨a.n + b.n⟩
  fsub a b := ⟨a.n - b.n⟩
  fmul a b := ⟨a.n * b.n / 1000⟩
  fdiv a b := ⟨a.n * 1000 / b.n⟩
  frem a b := ⟨a.n.tmod b.n⟩
  fneg a := ⟨-a.n⟩
  fofInt i := ⟨i.toInt * 1000⟩
  fcmp a b := some (if a.n < b.n then .lt else if a.n = b.n then .eq else .gt)
  feq a b := a.n == b.n
  fparse := Milli.parse
  fdisp := Milli.text
  fdebug m := if m.n % 1000 = 0 then m.text ++ c!".0" else m.text
  checks := true
  escape c := [c]
  order l := l

/-- A network that answers every request with `200 OK`. -/
def okNet : Net where
  exch _ _ := .answered ⟨utf8 c!"HTTP/1.1 200 OK\r\nServer: x\r\n\r\n{}", none⟩ ⟨0, 0, 0, 0, 0, 0, 0, 0, 0, 0⟩
  multipart _ := none

/-- evaluator.rs `run_eval_tests`: parse, evaluate, compare with `==`. -/
def evaluatesTo (text : Str) (v : Value Milli) : Bool :=
  match (parse text : Res (Source Milli)) with
  | .ok src =>
    match (runBlock okNet src.exprs ⟨Context.new.extend src.requests, [], []⟩).1 with
    | .ok w => w.eq v
    | _ => false
  | _ => false

/-! ## lexer.rs -/

/-- lexer.rs `test_segment`: the text. -/
def lexText : Str := c!"
            let five = 5;
            let ten = 10;
            let float = 3.14159265358979323846264338327950288;

            let add = fn(x, y) {
            x + y;
            };
            
            let number = add(five, ten);
            !-/*5;
            5 < 10 > 5;
            
            if (5 < 10) {
                return true;
            } else {
                return false;
            }
            
            10 == 10;
            10 != 9;
            \"foobar\"
            \"foo bar\"
            [1, 2];
            {\"foo\": \"bar\"};
            _a2
            request get()`
              GET http://example.com
              Host: example.com
            `[
            status == 200,
            regex(text, \"^\\d{4}-\\d{2}-\\d{2}$\") == \"2022-02-22\"
            ]
            left.field
            test expectStatusOk {
                let response = get();
                response.status
            }
            1&0
            1|0
            true&&false
            false||true
            "

/-- lexer.rs `test_segment`: the expected tokens. -/
def lexTokens : List (Kind × Str) := [
  (.Let, c!"let"),
  (.Ident, c!"five"),
  (.Assign, c!"="),
  (.Integer, c!"5"),
  (.Semi, c!";"),
  (.Let, c!"let"),
  (.Ident, c!"ten"),
  (.Assign, c!"="),
  (.Integer, c!"10"),
  (.Semi, c!";"),
  (.Let, c!"let"),
  (.Ident, c!"float"),
  (.Assign, c!"="),
  (.Float, c!"3.14159265358979323846264338327950288"),
  (.Semi, c!";"),
  (.Let, c!"let"),
  (.Ident, c!"add"),
  (.Assign, c!"="),
  (.Ident, c!"fn"),
  (.Lp, c!"("),
  (.Ident, c!"x"),
  (.Comma, c!","),
  (.Ident, c!"y"),
  (.Rp, c!")"),
  (.Lb, c!"{"),
  (.Ident, c!"x"),
  (.Add, c!"+"),
  (.Ident, c!"y"),
  (.Semi, c!";"),
  (.Rb, c!"}"),
  (.Semi, c!";"),
  (.Let, c!"let"),
  (.Ident, c!"number"),
  (.Assign, c!"="),
  (.Ident, c!"add"),
  (.Lp, c!"("),
  (.Ident, c!"five"),
  (.Comma, c!","),
  (.Ident, c!"ten"),
  (.Rp, c!")"),
  (.Semi, c!";"),
  (.Not, c!"!"),
  (.Sub, c!"-"),
  (.Div, c!"/"),
  (.Mul, c!"*"),
  (.Integer, c!"5"),
  (.Semi, c!";"),
  (.Integer, c!"5"),
  (.Lt, c!"<"),
  (.Integer, c!"10"),
  (.Gt, c!">"),
  (.Integer, c!"5"),
  (.Semi, c!";"),
  (.If, c!"if"),
  (.Lp, c!"("),
  (.Integer, c!"5"),
  (.Lt, c!"<"),
  (.Integer, c!"10"),
  (.Rp, c!")"),
  (.Lb, c!"{"),
  (.Ident, c!"return"),
  (.True, c!"true"),
  (.Semi, c!";"),
  (.Rb, c!"}"),
  (.Else, c!"else"),
  (.Lb, c!"{"),
  (.Ident, c!"return"),
  (.False, c!"false"),
  (.Semi, c!";"),
  (.Rb, c!"}"),
  (.Integer, c!"10"),
  (.Eq, c!"=="),
  (.Integer, c!"10"),
  (.Semi, c!";"),
  (.Integer, c!"10"),
  (.Ne, c!"!="),
  (.Integer, c!"9"),
  (.Semi, c!";"),
  (.String, c!"foobar"),
  (.String, c!"foo bar"),
  (.Ls, c!"["),
  (.Integer, c!"1"),
  (.Comma, c!","),
  (.Integer, c!"2"),
  (.Rs, c!"]"),
  (.Semi, c!";"),
  (.Lb, c!"{"),
  (.String, c!"foo"),
  (.Colon, c!":"),
  (.String, c!"bar"),
  (.Rb, c!"}"),
  (.Semi, c!";"),
  (.Ident, c!"_a2"),
  (.Request, c!"request"),
  (.Ident, c!"get"),
  (.Lp, c!"("),
  (.Rp, c!")"),
  (.Template, c!"\n              GET http://example.com\n              Host: example.com\n            "),
  (.Ls, c!"["),
  (.Ident, c!"status"),
  (.Eq, c!"=="),
  (.Integer, c!"200"),
  (.Comma, c!","),
  (.Ident, c!"regex"),
  (.Lp, c!"("),
  (.Ident, c!"text"),
  (.Comma, c!","),
  (.String, c!"^\\d{4}-\\d{2}-\\d{2}$"),
  (.Rp, c!")"),
  (.Eq, c!"=="),
  (.String, c!"2022-02-22"),
  (.Rs, c!"]"),
  (.Ident, c!"left"),
  (.Dot, c!"."),
  (.Ident, c!"field"),
  (.Test, c!"test"),
  (.Ident, c!"expectStatusOk"),
  (.Lb, c!"{"),
  (.Let, c!"let"),
  (.Ident, c!"response"),
  (.Assign, c!"="),
  (.Ident, c!"get"),
  (.Lp, c!"("),
  (.Rp, c!")"),
  (.Semi, c!";"),
  (.Ident, c!"response"),
  (.Dot, c!"."),
  (.Ident, c!"status"),
  (.Rb, c!"}"),
  (.Integer, c!"1"),
  (.Ba, c!"&"),
  (.Integer, c!"0"),
  (.Integer, c!"1"),
  (.Bo, c!"|"),
  (.Integer, c!"0"),
  (.True, c!"true"),
  (.La, c!"&&"),
  (.False, c!"false"),
  (.False, c!"false"),
  (.Lo, c!"||"),
  (.True, c!"true"),
  (.Eof, c!"")]

example : segment lexText = lexTokens.map (fun p => ⟨p.1, p.2⟩) := by decide +kernel

/-! ## parser.rs -/

/-- The texts `{}` (Display) of the top-level expressions. -/
def displays (text : Str) : Option (List Str) :=
  match (parse text : Res (Source Milli)) with
  | .ok src => some (src.exprs.map Expr.display)
  | _ => none

/-- The texts `{:?}` (Debug) of the top-level expressions, one after the other. -/
def debugs (text : Str) : Option Str :=
  match (parse text : Res (Source Milli)) with
  | .ok src => some (src.exprs.flatMap Expr.debug)
  | _ => none

/-- The single top-level expression. -/
def single (text : Str) : Option (Expr Milli) :=
  match (parse text : Res (Source Milli)) with
  | .ok ⟨[e], _, _⟩ => some e
  | _ => none

/-- `test_parse_let_expr`: number of expressions, name and value text of the first. -/
def letShape (text : Str) : Option (Nat × Str) :=
  match (parse text : Res (Source Milli)) with
  | .ok ⟨.letE n v :: es, _, _⟩ => some (es.length + 1, c!"let " ++ n ++ c!" " ++ v.display)
  | _ => none

example : [(c!"let x =  5;", (1, c!"let x 5")), (c!"let x =  5 let y = 6", (2, c!"let x 5")), (c!"let y  = true;", (1, c!"let y true")),
    (c!"let  foobar = y;", (1, c!"let foobar y")), (c!"let i = 0; [1][i];", (2, c!"let i 0"))].all
    (fun t => letShape t.1 = some t.2) := by decide +kernel

-- `test_parse_ident_expr`, `test_parse_integer_literal`, `test_parse_float_literal` (rounded to thousandths),
-- `test_parse_boolean_literal`, `test_parse_string_literal`
example : single c!"foobar;" = some (.ident c!"foobar") := by rfl
example : single c!"5;" = some (.int 5) := by rfl
example : single c!"3.14159265358979323846264338327950288;" = some (.float ⟨3141⟩) := by rfl
example : single c!"true;" = some (.bool true) := by rfl
example : single c!"false;" = some (.bool false) := by rfl
example : single c!"\"hello world\";" = some (.str c!"hello world") := by rfl

/-- `test_parse_unary_expr`: operator and operand text. (The Rust test skips texts that do not parse, such as `~5;`.) -/
def unaryShape (text : Str) : Option (Str × Str) :=
  match single text with
  | some (.unary t r) => some (t.literal, r.display)
  | _ => none

example : [(c!"!5;", c!"!", c!"5"), (c!"-15;", c!"-", c!"15"), (c!"!foobar;", c!"!", c!"foobar"), (c!"-foobar;", c!"-", c!"foobar"),
    (c!"!true;", c!"!", c!"true"), (c!"!false;", c!"!", c!"false")].all (fun t => unaryShape t.1 = some t.2) := by decide +kernel
example : (match (parse c!"~5;" : Res (Source Milli)) with | .err _ => true | _ => false) = true := by decide +kernel

/-- `test_parse_binary_expr`: operand texts and operator. -/
def binaryShape (text : Str) : Option (Str × Str × Str) :=
  match single text with
  | some (.binary t l r) => some (l.display, t.literal, r.display)
  | _ => none

example : [
    (c!"5 + 5;", c!"5", c!"+", c!"5"),
    (c!"5 - 5;", c!"5", c!"-", c!"5"),
    (c!"5 * 5;", c!"5", c!"*", c!"5"),
    (c!"5 / 5;", c!"5", c!"/", c!"5"),
    (c!"5 > 5;", c!"5", c!">", c!"5"),
    (c!"5 < 5;", c!"5", c!"<", c!"5"),
    (c!"5 >= 5;", c!"5", c!">=", c!"5"),
    (c!"5 <= 5;", c!"5", c!"<=", c!"5"),
    (c!"5 == 5;", c!"5", c!"==", c!"5"),
    (c!"5 != 5;", c!"5", c!"!=", c!"5"),
    (c!"foobar + barfoo;", c!"foobar", c!"+", c!"barfoo"),
    (c!"foobar - barfoo;", c!"foobar", c!"-", c!"barfoo"),
    (c!"foobar * barfoo;", c!"foobar", c!"*", c!"barfoo"),
    (c!"foobar / barfoo;", c!"foobar", c!"/", c!"barfoo"),
    (c!"foobar > barfoo;", c!"foobar", c!">", c!"barfoo"),
    (c!"foobar < barfoo;", c!"foobar", c!"<", c!"barfoo"),
    (c!"foobar == barfoo;", c!"foobar", c!"==", c!"barfoo"),
    (c!"foobar != barfoo;", c!"foobar", c!"!=", c!"barfoo"),
    (c!"true == true", c!"true", c!"==", c!"true"),
    (c!"true != false", c!"true", c!"!=", c!"false"),
    (c!"false == false", c!"false", c!"==", c!"false"),
    (c!"1^0", c!"1", c!"^", c!"0"),
    (c!"1&0", c!"1", c!"&", c!"0"),
    (c!"1|0", c!"1", c!"|", c!"0"),
    (c!"true&&false", c!"true", c!"&&", c!"false"),
    (c!"false||true", c!"false", c!"||", c!"true")].all (fun t => binaryShape t.1 = some t.2) := by decide +kernel

-- `test_parse_operator_precedence`
example : [
    (c!"-a * b", c!"((-a) * b)"),
    (c!"!-a", c!"(!(-a))"),
    (c!"a + b + c", c!"((a + b) + c)"),
    (c!"a + b - c", c!"((a + b) - c)"),
    (c!"a * b * c", c!"((a * b) * c)"),
    (c!"a * b / c", c!"((a * b) / c)"),
    (c!"a + b / c", c!"(a + (b / c))"),
    (c!"a + b * c + d / e - f", c!"(((a + (b * c)) + (d / e)) - f)"),
    (c!"3 + 4; -5 * 6", c!"(3 + 4)((-5) * 6)"),
    (c!"5 > 4 == 3 < 4", c!"((5 > 4) == (3 < 4))"),
    (c!"5 < 4 != 3 > 4", c!"((5 < 4) != (3 > 4))"),
    (c!"3 + 4 * 5 == 3 * 1 + 4 * 5", c!"((3 + (4 * 5)) == ((3 * 1) + (4 * 5)))"),
    (c!"true", c!"true"),
    (c!"false", c!"false"),
    (c!"3 > 5 == false", c!"((3 > 5) == false)"),
    (c!"3 < 5 == true", c!"((3 < 5) == true)"),
    (c!"1 + (2 + 3) + 4", c!"((1 + (2 + 3)) + 4)"),
    (c!"(5 + 5) * 2", c!"((5 + 5) * 2)"),
    (c!"2 / (5 + 5)", c!"(2 / (5 + 5))"),
    (c!"(5 + 5) * 2 * (5 + 5)", c!"(((5 + 5) * 2) * (5 + 5))"),
    (c!"-(5 + 5)", c!"(-(5 + 5))"),
    (c!"!(true == true)", c!"(!(true == true))"),
    (c!"a + add(b * c) + d", c!"((a + add((b * c))) + d)"),
    (c!"add(a, b, 1, 2 * 3, 4 + 5, add(6, 7 * 8))", c!"add(a, b, 1, (2 * 3), (4 + 5), add(6, (7 * 8)))"),
    (c!"add(a + b + c * d / f + g)", c!"add((((a + b) + ((c * d) / f)) + g))"),
    (c!"a * [1, 2, 3, 4][b * c] * d", c!"((a * ([1, 2, 3, 4][(b * c)])) * d)"),
    (c!"add(a * b[2], b[1], 2 * [1, 2][1])", c!"add((a * (b[2])), (b[1]), (2 * ([1, 2][1])))"),
    (c!"!add()", c!"(!add())"),
    (c!"-add()", c!"(-add())"),
    (c!"!array[1]", c!"(!(array[1]))"),
    (c!"-left.field", c!"(-left.field)"),
    (c!"3 > 2 && 2 > 1", c!"((3 > 2) && (2 > 1))"),
    (c!"a || b * c", c!"(a || (b * c))"),
    (c!"a && b < c", c!"(a && (b < c))"),
    (c!"b + c || a", c!"((b + c) || a)"),
    (c!"b < c & a", c!"((b < c) & a)")].all (fun t => debugs t.1 = some t.2) := by decide +kernel

/-- `test_parse_if_expr`, `test_parse_if_else_expr`. -/
def ifShape (text : Str) : Option (Str × List Str × List Str) :=
  match single text with
  | some (.ifE c t e) => some (c.display, t.map Expr.display, e.map Expr.display)
  | _ => none

example : ifShape c!"if (x < y) { x }" = some (c!"x < y", [c!"x"], []) := by decide +kernel
example : ifShape c!"if (x < y) { z;x } else { y }" = some (c!"x < y", [c!"z", c!"x"], [c!"y"]) := by decide +kernel

/-- `test_parse_call_expr`, `test_parse_call_expr_argument`. -/
def callShape (text : Str) : Option (Str × List Str) :=
  match single text with
  | some (.call f args) => some (f, args.map Expr.display)
  | _ => none

example : callShape c!"add();" = some (c!"add", []) := by decide +kernel
example : callShape c!"add(1);" = some (c!"add", [c!"1"]) := by decide +kernel
example : callShape c!"add(1, 2 * 3, 4 + 5);" = some (c!"add", [c!"1", c!"2 * 3", c!"4 + 5"]) := by decide +kernel

/-- `test_parse_array_literal_empty`, `test_parse_array_literal`. -/
def arrayShape (text : Str) : Option (List Str) :=
  match single text with
  | some (.arr items) => some (items.map Expr.display)
  | _ => none

example : arrayShape c!"[]" = some [] := by decide +kernel
example : arrayShape c!"[1, 2 * 2, 3 + 3]" = some [c!"1", c!"2 * 2", c!"3 + 3"] := by decide +kernel

/-- `test_parse_index_expr`. -/
def indexShape (text : Str) : Option (Str × Str) :=
  match single text with
  | some (.index l i) => some (l.display, i.display)
  | _ => none

example : indexShape c!"myArray[1 + 1]" = some (c!"myArray", c!"1 + 1") := by decide +kernel

/-- `test_parse_field_expr`. -/
def fieldShape (text : Str) : Option (Str × Str) :=
  match single text with
  | some (.field l n) => some (l.display, n)
  | _ => none

example : fieldShape c!"left.field" = some (c!"left", c!"field") := by decide +kernel

/-- `test_parse_map_literal_*`. -/
def mapShape (text : Str) : Option (List (Str × Str)) :=
  match single text with
  | some (.map pairs) => some (pairs.map fun p => (p.1.display, p.2.display))
  | _ => none

example : mapShape c!"{}" = some [] := by decide +kernel
example : mapShape c!"{1: true}" = some [(c!"1", c!"true")] := by decide +kernel
example : mapShape c!"{\"one\": 1, \"two\": 2, \"three\": 3}" = some [(c!"\"one\"", c!"1"), (c!"\"two\"", c!"2"), (c!"\"three\"", c!"3")] := by
  decide +kernel
example : mapShape c!"{true: 1, false: 2}" = some [(c!"true", c!"1"), (c!"false", c!"2")] := by decide +kernel
example : mapShape c!"{1: 1, 2: 2, 3: 3}" = some [(c!"1", c!"1"), (c!"2", c!"2"), (c!"3", c!"3")] := by decide +kernel
example : mapShape c!"{\"one\": 0 + 1, \"two\": 10 - 8, \"three\": 15 / 5}" =
    some [(c!"\"one\"", c!"0 + 1"), (c!"\"two\"", c!"10 - 8"), (c!"\"three\"", c!"15 / 5")] := by decide +kernel

/-- `test_parse_request_literal`, `test_parse_request_asserts`: name, message and assert texts of the requests. -/
def requestShape (text : Str) : Option (List (Str × Str × List Str)) :=
  match (parse text : Res (Source Milli)) with
  | .ok src => some (src.requests.map fun p => (p.1, p.2.1, p.2.2.map Expr.display))
  | _ => none

example : requestShape c!"request get`\nGET http://{host}/api\nHost: example.com\n`" =
    some [(c!"get", c!"\nGET http://{host}/api\nHost: example.com\n", [])] := by decide +kernel
example : requestShape c!"request post`POST`" = some [(c!"post", c!"POST", [])] := by decide +kernel
example : requestShape c!"request get`\\nGET http://${host}/api\\nHost: example.com\\n`[
               status == 200,
               regex(text, \"^\\d{4}-\\d{2}-\\d{2}$\") == \"2022-02-22\"
               ]" = some [(c!"get", c!"\\nGET http://${host}/api\\nHost: example.com\\n",
                [c!"status == 200", c!"regex(text, \"^\\d{4}-\\d{2}-\\d{2}$\") == \"2022-02-22\""])] := by decide +kernel
example : requestShape c!"request post`POST`[]" = some [(c!"post", c!"POST", [])] := by decide +kernel

/-- `test_parse_test_literal`: names and lengths of the tests. -/
def testShape (text : Str) : Option (List (Str × Nat)) :=
  match (parse text : Res (Source Milli)) with
  | .ok src => some (src.tests.map fun p => (p.1, p.2.length))
  | _ => none

example : testShape c!"
            test expectStatusOk {
                let response = get();
                response.status
            }" = some [(c!"expectStatusOk", 2)] := by decide +kernel
example : testShape c!"
            test empty {
            }" = some [(c!"empty", 0)] := by decide +kernel

/-! ## evaluator.rs -/

-- `test_integer_arithmetic`
example : [
    (c!"1", .int 1),
    (c!"2", .int 2),
    (c!"1 + 2", .int 3),
    (c!"1 - 2", .int (-1)),
    (c!"1 * 2", .int 2),
    (c!"4 / 2", .int 2),
    (c!"7 % 3", .int 1),
    (c!"50 / 2 * 2 + 10 - 5", .int 55),
    (c!"5 * (2 + 10)", .int 60),
    (c!"5 + 5 + 5 + 5 - 10", .int 10),
    (c!"2 * 2 * 2 * 2 * 2", .int 32),
    (c!"5 * 2 + 10", .int 20),
    (c!"5 + 2 * 10", .int 25),
    (c!"5 * (2 + 10)", .int 60),
    (c!"-5", .int (-5)),
    (c!"-10", .int (-10)),
    (c!"-50 + 100 + -50", .int 0),
    (c!"(5 + 10 * 2 + 15 / 3) * 2 + -10", .int 50),
    (c!"!5", .int (-6)),
    (c!"!!5", .int 5),
    (c!"!-3", .int 2),
    (c!"5 ^ 3", .int 6),
    (c!"5 | 3", .int 7),
    (c!"5 & 3", .int 1),
    (c!"5 << 2", .int 20),
    (c!"5 >> 2", .int 1),
    (c!"-5 >> 2", .int (-2))].all (fun t : Str × Value Milli => evaluatesTo t.1 t.2) := by decide +kernel

-- `test_boolean_arithmetic`
example : [
    (c!"true", .bool true),
    (c!"false", .bool false),
    (c!"1 < 2", .bool true),
    (c!"1 > 2", .bool false),
    (c!"1 < 1", .bool false),
    (c!"1 > 1", .bool false),
    (c!"1 <= 2", .bool true),
    (c!"1 >= 2", .bool false),
    (c!"1 <= 1", .bool true),
    (c!"1 >= 1", .bool true),
    (c!"1 == 1", .bool true),
    (c!"1 != 1", .bool false),
    (c!"1 == 2", .bool false),
    (c!"1 != 2", .bool true),
    (c!"true == true", .bool true),
    (c!"false == false", .bool true),
    (c!"true == false", .bool false),
    (c!"true != false", .bool true),
    (c!"false != true", .bool true),
    (c!"(1 < 2) == true", .bool true),
    (c!"(1 < 2) == false", .bool false),
    (c!"(1 > 2) == true", .bool false),
    (c!"(1 > 2) == false", .bool true),
    (c!"!true", .bool false),
    (c!"!false", .bool true),
    (c!"!!true", .bool true),
    (c!"!!false", .bool false),
    (c!"!(if (false) { 5; })", .bool true)].all (fun t : Str × Value Milli => evaluatesTo t.1 t.2) := by decide +kernel

-- `test_string_literal`
example : [
    (c!"\"hello world\"", .str c!"hello world"),
    (c!"\"hello\" + \" world\"", .str c!"hello world"),
    (c!"\"hello\"+\" world\"+\"!\"", .str c!"hello world!")].all (fun t : Str × Value Milli => evaluatesTo t.1 t.2) := by decide +kernel

-- `test_logical_expr`
example : [
    (c!"true || true", .bool true),
    (c!"true || false", .bool true),
    (c!"false || true", .bool true),
    (c!"false || false", .bool false),
    (c!"\"Cat\" || \"Dog\"", .str c!"Cat"),
    (c!"false || \"Cat\"", .str c!"Cat"),
    (c!"\"Cat\" || false", .str c!"Cat"),
    (c!"\"\" || false", .str c!""),
    (c!"false || \"\"", .str c!""),
    (c!"true && true", .bool true),
    (c!"true &&  false", .bool false),
    (c!"false && true", .bool false),
    (c!"false && false", .bool false),
    (c!"\"Cat\" && \"Dog\"", .str c!"Dog"),
    (c!"false && \"Cat\"", .bool false),
    (c!"\"Cat\" && false", .bool false),
    (c!"\"\" && false", .bool false),
    (c!"false && \"\"", .bool false),
    (c!"true || false && false", .bool true),
    (c!"(true || false) && false", .bool false),
    (c!"true && (false || false)", .bool false),
    (c!"2 == 3 || (4 < 0 && 1 == 1)", .bool false),
    (c!"true && false && 1 == 1", .bool false),
    (c!"let flag = true && false && 1 == 1;", .bool false)].all (fun t : Str × Value Milli => evaluatesTo t.1 t.2) := by decide +kernel

-- `test_index_expr`
example : [
    (c!"[1, 2, 3][1]", .int 2),
    (c!"[1, 2, 3][0 + 2]", .int 3),
    (c!"[[1, 1, 1]][0][0]", .int 1),
    (c!"[][0]", .null),
    (c!"[1, 2, 3][99]", .null),
    (c!"[1][-1]", .null),
    (c!"{1: 1, 2: 2}[1]", .int 1),
    (c!"{1: 1, 2: 2}[2]", .int 2),
    (c!"{1: 1}[0]", .null),
    (c!"{}[0]", .null)].all (fun t : Str × Value Milli => evaluatesTo t.1 t.2) := by decide +kernel

-- `test_field_expr`
example : [
    (c!"{\"a\": 2}.a", .int 2)].all (fun t : Str × Value Milli => evaluatesTo t.1 t.2) := by decide +kernel

-- `test_let_expr`
example : [
    (c!"let one = 1; one", .int 1),
    (c!"let one = 1; let two = 2; one + two", .int 3),
    (c!"let one = 1; let two = one + one; one + two", .int 3),
    (c!"let one = 1; one;", .int 1),
    (c!"let one = 1; let two = 2; one + two;", .int 3),
    (c!"let one = 1; let two = one + one; one + two;", .int 3),
    (c!"let one = 1;let one = 2;", .int 2),
    (c!"let one = 1;let one = 2;one", .int 2),
    (c!"let one = 1;let two = 2;let one = 3;one", .int 3)].all (fun t : Str × Value Milli => evaluatesTo t.1 t.2) := by decide +kernel

-- `test_if_expr`
example : [
    (c!"if (true) { 10 }", .int 10),
    (c!"if (true) { 10 } else { 20 }", .int 10),
    (c!"if (false) { 10 } else { 20 } ", .int 20),
    (c!"if (1) { 10 }", .int 10),
    (c!"if (1 < 2) { 10 }", .int 10),
    (c!"if (1 < 2) { 10 } else { 20 }", .int 10),
    (c!"if (1 > 2) { 10 } else { 20 }", .int 20),
    (c!"if (1 > 2) { 10 }", .null),
    (c!"if (false) { 10 }", .null),
    (c!"if ((if (false) { 10 })) { 10 } else { 20 }", .int 20),
    (c!"if (true) {} else { 10 }", .null),
    (c!"if (true) { 1; 2 } else { 3 }", .int 2)].all (fun t : Str × Value Milli => evaluatesTo t.1 t.2) := by decide +kernel

-- `test_call_native`
example : [
    (c!"length(\"\")", .int 0),
    (c!"length(\"two\")", .int 3),
    (c!"length(\"hello world\")", .int 11),
    (c!"length([])", .int 0),
    (c!"length([1, 2, 3])", .int 3)].all (fun t : Str × Value Milli => evaluatesTo t.1 t.2) := by decide +kernel

-- `test_array_literal`, `test_map_literal`
example : evaluatesTo c!"[]" (.arr []) := by decide +kernel
example : evaluatesTo c!"[1, 2, 3]" (.arr [.int 1, .int 2, .int 3]) := by decide +kernel
example : evaluatesTo c!"[1 + 2, 3 - 4, 5 * 6]" (.arr [.int 3, .int (-1), .int 30]) := by decide +kernel
example : evaluatesTo c!"{}" (.map []) := by decide +kernel
example : evaluatesTo c!"{1: 2, 2: 3}" (.map [(c!"1", .int 2), (c!"2", .int 3)]) := by decide +kernel
example : evaluatesTo c!"{1 + 1: 2 * 2, 3 + 3: 4 * 4}" (.map [(c!"2", .int 4), (c!"6", .int 16)]) := by decide +kernel

-- `test_float_arithmetic`: the cases whose result is exact in thousandths
example : [(c!"1.0", 1000), (c!"0.2", 200), (c!"1.0 + 0.2", 1200), (c!"4.0 / 2.0", 2000), (c!"5.0 / 2.0 * 2.0 + 1.0 - 0.5", 5500),
    (c!"5.0 * (0.2 + 1.0)", 6000), (c!"0.5 + 0.5 + 0.5 + 0.5 - 1.0", 1000), (c!"0.5 * 2.2 + 1.1", 2200), (c!"0.5 + 0.2 * 10.0", 2500),
    (c!"0.5 * (2.0 + 10.0)", 6000), (c!"-0.5", -500), (c!"-1.0", -1000), (c!"-5.0 + 10.0 + -5.0", 0),
    (c!"(0.5 + 1.5 * 0.2 + 1.5 / 3.0) * 2.0 + -1.0", 1600)].all
    (fun t : Str × Int => evaluatesTo t.1 (.float ⟨t.2⟩)) := by decide +kernel

-- `test_request_literal`, `test_request_asserts`, with `okNet` as the network
example : evaluatesTo c!"
            request get`
                GET http://{host}/get
                Host: {host}
                Connection: close
            `[];
            let host = \"httpbin.org\";
            let response = get();
            response.status
            " (.int 200) := by decide +kernel
example : evaluatesTo c!"
            request get`
                GET http://{host}/get
                Host: {host}
                Connection: close
            `[status == 200];
            let host = \"httpbin.org\";
            let response = get();
            response.status
            " (.int 200) := by decide +kernel

/-! ## native.rs -/

/-- `test_format`, `test_append`: the result compared with `==`. -/
def gives (r : Res (Value Milli)) (v : Value Milli) : Bool :=
  match r with
  | .ok w => w.eq v
  | _ => false

example : gives (nativeFormat [.str c!"Hello, {name}!", .str c!"World"]) (.str c!"Hello, World!") := by decide +kernel
example : gives (nativeFormat [.str c!"{ \"name\": \"{name}\" , age: 2 }", .str c!"Bob"]) (.str c!"{ \"name\": \"Bob\" , age: 2 }") := by
  decide +kernel
example : gives (nativeFormat [.str c!"{ \"name\": \"{name}\" , age: {age} }", .str c!"Bob", .int 2]) (.str c!"{ \"name\": \"Bob\" , age: 2 }") := by
  decide +kernel
example : gives (nativeAppend [.arr [.int 1], .int 2]) (.arr [.int 1, .int 2]) := by decide +kernel
example : gives (nativeAppend [.arr [.int 1], .str c!"string"]) (.arr [.int 1, .str c!"string"]) := by decide +kernel
example : gives (nativeAppend [.arr [.int 1], .bool true]) (.arr [.int 1, .bool true]) := by decide +kernel

/-! ## http -/

-- url.rs
example : Url.ofStr c!"http://IP_ADDRESS" = ⟨.Http, c!"IP_ADDRESS", 80, c!"/"⟩ := by decide +kernel
example : Url.ofStr c!"http://IP_ADDRESS:52831" = ⟨.Http, c!"IP_ADDRESS", 52831, c!"/"⟩ := by decide +kernel
example : Url.ofStr c!"http://IP_ADDRESS/hello" = ⟨.Http, c!"IP_ADDRESS", 80, c!"/hello"⟩ := by decide +kernel
example : Url.ofStr c!"http://IP_ADDRESS:52831/hello/world" = ⟨.Http, c!"IP_ADDRESS", 52831, c!"/hello/world"⟩ := by decide +kernel
example : Url.ofStr c!"http://IP_ADDRESS/hello/world?a=b" = ⟨.Http, c!"IP_ADDRESS", 80, c!"/hello/world?a=b"⟩ := by decide +kernel
example : Url.ofStr c!"http://IP_ADDRESS:52831/hello/world?a=b" = ⟨.Http, c!"IP_ADDRESS", 52831, c!"/hello/world?a=b"⟩ := by
  decide +kernel
example : Url.ofStr c!"http://IP_ADDRESS/hello/world?a=b#fragment" = ⟨.Http, c!"IP_ADDRESS", 80, c!"/hello/world?a=b#fragment"⟩ := by
  decide +kernel
example : Url.ofStr c!"http://IP_ADDRESS:52831/hello/world?a=b#fragment" =
    ⟨.Http, c!"IP_ADDRESS", 52831, c!"/hello/world?a=b#fragment"⟩ := by decide +kernel

-- request.rs `test_from_message_get`
example : (Request.ofStr (fun _ => none) c!"\n    GET http://httpbin.org/get\n    Host: httpbin.org").1.method.text = c!"GET" := by
  decide +kernel

-- client.rs: the requests of `test_send_message_*` (what the server answers is not part of the model)
example : (Request.ofStr (fun _ => none) c!"
    POST https://httpbin.org/post
    Host: httpbin.org
    Content-Type: application/x-www-form-urlencoded
    Connection: close

    a: b").1.method = .Post := by decide +kernel

/-- response.rs `test_from_message_json`: the bytes received. -/
def jsonMessage : Str := c!"HTTP/1.1 200 OK
    Date: Sun, 21 Jul 2025 14:32:11 GMT
    Content-Type: application/json
    Content-Length: 33
    Connection: close
    Server: gunicorn/19.9.0
    Access-Control-Allow-Origin: *
    Access-Control-Allow-Credentials: true

    {
    \"origin\": \"104.28.152.141\"
    }
    "

/-- The response to these bytes. -/
def jsonResponse : Response :=
  match Response.read ⟨utf8 jsonMessage, none⟩ with
  | .ok r => r
  | _ => .default

example : jsonResponse.status = 200 := by decide +kernel
example : jsonResponse.headers.length = 7 := by decide +kernel
example : jsonResponse.body = c!"    {\n    \"origin\": \"104.28.152.141\"\n    }\n    " := by decide +kernel
example : (match (jsonResponse.toMap : Res (List (Str × Value Milli))) with
    | .ok m => (amGet c!"json" m).any fun v => v.eq (.map [(c!"origin", .str c!"104.28.152.141")])
    | _ => false) = true := by decide +kernel

-- stream.rs `test_rotate_*`
example : rotate [1, 2, 3] [4, 5, 6] = [1, 4, 2, 5, 3, 6] := by simp [rotate]
example : rotate [1, 2, 3, 100, 101] [4, 5, 6] = [1, 4, 2, 5, 3, 6, 100, 101] := by simp [rotate]
example : rotate [1, 2, 3] [4, 5, 6, 100, 101] = [1, 4, 2, 5, 3, 6, 100, 101] := by simp [rotate]

/-! ## writer.rs: `test_encode_long`, `test_encode_bytes`, `test_encode_record` -/

example : encLong 27 = [0x36] := by decide +kernel
example : encStr c!"foo" = [0x06, 0x66, 0x6f, 0x6f] := by decide +kernel
example : encLong 1 ++ encBytes (encLong 27 ++ encStr c!"foo") = [0x02, 0x0a, 0x36, 0x06, 0x66, 0x6f, 0x6f] := by decide +kernel

/-! ## cmd/tests/command.rs -/

/-- What `eval` prints for a text. -/
def printed (text : Str) : Str := (evalText (F := Milli) okNet text ⟨Context.new, [], []⟩).2.out

-- `test_command_eval`
example : printed c!"print(\"{integer}\", 1 + 1 )" = c!"2null\n" := by decide +kernel
example : printed c!"let x = 1 + 1; print(\"{integer}\", x);" = c!"2null\n" := by decide +kernel
example : printed c!"println(\"{string}\", \"Hello Basjoofan!\")" = c!"Hello Basjoofan!\nnull\n" := by decide +kernel

-- `test_command_repl`
example : trim (repl (F := Milli) okNet [.line c!"let x = 1 + 1; println(\"{x}\", x);", .line c!"exit"] [] []).2.out = c!"2\nnull" := by
  decide +kernel

/-- `test_command_test`: the program. -/
def testProgram : Str := c!"
    let host = \"httpbin.org\";
    request get`
        GET http://{host}/get
        Host: {host}
        Connection: close
    `[status == 200];

    test call {
        let response = get();
        response.status
    }
    "

/-- Name, request path and PASS flag of the records of one evaluation of the test `name` (the threads themselves are the subject
of C49-C53); `none` when `setup` fails, `some none` when there is no such test. -/
def testRecords (name : Str) : Option (Option (List (Str × Str × Bool))) :=
  match setup okNet testProgram ⟨(Context.new : Context Milli), [], []⟩ with
  | (.ok (some tests), s) =>
    match amGet name tests with
    | some test => some (some ((runBlock okNet test ⟨s.ctx.clone, [], []⟩).2.ctx.records.map fun r => (r.name, r.request.url.path, r.flag)))
    | none => some none
  | _ => none

example : testRecords c!"call" = some (some [(c!"get", c!"/get", true)]) := by decide +kernel
example : testRecords c!"blank" = some none := by decide +kernel
-- what is printed for such a record
example (r : Record) (h : r.flag = true) (h2 : r.name = c!"get") : c!"--- PASS  get (" <:+: r.text := by
  unfold Record.text
  rw [h, h2]
  exact ⟨c!"=== TEST  get\n" ++ r.asserts.flatMap Assert.reportLine, durText r.time.total ++ c!")", by simp⟩

end Am.Checks
