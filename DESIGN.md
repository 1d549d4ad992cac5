# Formal model of basjoofan/am in Lean 4

## 1. Layout

```
lean/Verif/Model/*.lean   the model: one file per Rust source file, every definition cites file and lines
lean/Verif/Spec/*.lean    small independent specifications used in theorem statements
lean/Verif/Proofs/*.lean  helper lemmas and invariants
lean/Verif/Props/*.lean   the property theorems (names c01_..., c02_...) with non-vacuity examples
lean/Verif/Checks/*.lean  the repository's own unit tests, transcribed and checked against the model
properties.jsonl          the property list;  MANIFEST.json: property -> theorems;  seeded/LOG.jsonl: mutation log
```

Where the code works at two levels there are two models and a theorem that relates them:

* parser: `Model/Parser.lean` on the list of remaining tokens, `Model/ParserIndex.lean` with the index (C07);
* start of the threads: all at once in `Model/TestRun.lean`, one after the other with their files in `Model/Launch.lean` (C76);
* standard output: every write works, except in `Model/Pipe.lean`, where any write may fail and panic (C89);
* connections: every connection ends, except in `Model/Silent.lean`, where a connection may stay open with nothing more arriving (C91) and an exchange may never end (C92);
* texts: characters everywhere, bytes with std's boundary panics in `Model/Bytes.lean` (C72);
* network: whole exchanges in `Model/Http.lean`, single read and write calls in `Model/Io.lean` (C67-C70);
* programs: the evaluator in `Model/Evaluator.lean`, the rules of the language in `Spec/Semantics.lean` (C63, C64);
* floats: a parameter `F` with its operations everywhere, `f64` itself in `Model/Float64.lean` (C94-C96), where the assumptions on floats become theorems.

## 2. Trusted base

* Lean 4.33.0's kernel. Axioms: at most `propext`, `Classical.choice`, `Quot.sound` (checked by `vcheck`).
  No own axioms, no `sorry`, no `native_decide`, no `bv_decide`.
* The reading of /repo: each model definition is a transcription by hand; the code was not run. `Checks/Tests.lean` replays the
  repository's tests on the model, and seeded faults (section 5) check that the theorems notice changes.
* Library behaviour assumed, as documented by the Rust standard library and the crates: `char::is_whitespace` (the Unicode
  White_Space set, written out), `str::{trim, lines, split, split_once, split_whitespace, find, parse}`, `HashMap` as a finite
  map with unspecified iteration order, `Vec`, `String::replace_range`, `regex` leftmost matching for the one fixed pattern
  `\{\s*([a-zA-Z_][a-zA-Z0-9_]*)\s*\}`, `form_urlencoded::Serializer`, `mpsc` channels as FIFO queues that disconnect when
  all senders are dropped, `BufReader` and `BufWriter` (modelled call by call for any buffer size in `Model/Io.lean`; the points at
  which `io::copy` flushes are simplified to one copy of all bytes), `thread::spawn`/`join`.

* `f64` as in `Model/Float64.lean`: IEEE 754 binary64 with rounding to nearest, ties to even (`+ - * / %`, `as f64`), `str::parse::<f64>`
  correctly rounded, `Display` and `Debug` with the shortest digits that read back. The bits of a NaN are not modelled.

### Assumptions that appear as hypotheses

* `FloatsCompare`: `f64` comparison is consistent (C26; proved for the `f64` of `Model/Float64.lean`). `Speaks`: an I/O error has a non-empty text (C46).
* Monotone clock readings (C14, C45, C46).
* Lengths below 2^63 where the code casts a length to `i64` (C24, C29).
* Proper values (maps with distinct keys) as start of a session (C63, C64); evaluation preserves this.
* `FloatsCommute`: `f64` addition and multiplication do not depend on the order of operands (C121; proved for the `f64` of `Model/Float64.lean` by `c121_floats`).
* Received bodies on which the parser returns (C13, C51), since it loops on some texts (C06).

### Parameters of the model (theorems hold for every choice)

* `Rt F`: the float type `F` and its operations (`f64` arithmetic, comparison, parsing, printing), whether integer overflow
  checks are compiled in (debug / release profile), how non-ASCII characters are escaped by `{:?}`, and the order in which a
  `HashMap` is iterated.
* `Net`: the outcome of each HTTP exchange (connection failure, write failure, bytes received, read failure, clock readings),
  an arbitrary function of the history of messages sent so far.
* Schedules: arbitrary lists of scheduler choices.

### Not modelled

Memory exhaustion (the stack is modelled for C75 only), the inside of TLS and DNS (each call's outcome is a parameter), real time,
the `multipart` crate's body bytes (the multipart branch yields an opaque content value that records the parts), `clap` (the parsed
arguments are the input), signal delivery (an event that may occur at any step), a missing working directory (`current_dir().unwrap()`, command.rs:58), file system errors (except for reading sources, C57, and creating record files, C76), relaxed-memory effects on the stop flag (one flag, one direction: modelled as a shared boolean).
`usize` overflow is not modelled: list lengths are natural numbers; where the code casts a length, the theorem states the
bound it needs.

### General simplifications

* `String`/`&str` are lists of Unicode scalar values; byte indices become character indices (C72: all uses are at character
  boundaries and give the same text). Where bytes matter (writer, wire, `length`) UTF-8 encoding is explicit.
* `HashMap` is an association list with unique keys; equality of maps is lookup equality as in Rust. The order in which a map is
  printed is an unknown function of its rendered entries (`Rt.order`), so two maps with the same entries print alike in the model,
  while Rust may order two separately built maps differently; theorems that compare the output of two runs (C77) are for the same order.
  `Model/AnyOrder.lean` drops this: there every map may be listed in any order each time. C126 says when that makes no difference; C127 proves the main claims without the restriction. `Model/AnyThreads.lean` does the same for runs of tests (C135).
* `&mut self` becomes state passing; `Result` and panics are data: `Res = ok | err msg | panic | hang`.
* The parser position (`tokens`, `index`) is the list of tokens from the current one on; `Model/ParserIndex.lean` keeps the
  index version and C07 relates them.
* Loops whose termination is in question (the parser) take a fuel argument; running out of fuel for every fuel is
  divergence, and a bound is proved after which running out of fuel means divergence.

## 3. Plan per property

| id | modelled | how proved |
|----|----------|------------|
| C01 | lexer | induction on the text through a one-token step function |
| C02 | lexer + spelling relation | step lemma "consumed prefix = spelling of token", induction |
| C03 | lexer + renderer | boundary lemma "lexing spelling ++ rest = token :: lexing rest", induction over tokens |
| C04 | lexer | classification of the step function's output |
| C05 | lexer, read | false (tokens merge at the seam): counterexample; `_partial` when the first file ends in whitespace outside a string; `c05_exact_partial` and, in terms of the texts, `c05_exact`/`c05_open_exact` say exactly which files can be joined |
| C06 | parser with fuel | false (`a!` loops forever): proof for all fuels; `_partial`: terminates if no `!` follows an operand; exact: `hang` iff the tokens are `Endless` (Spec/Accepts) |
| C07 | index parser state | invariant index < length; simulation with the list state |
| C08 | parser + `NF` predicate | induction on fuel over the mutual parser functions |
| C09 | parser + yield relation | same induction, consumed tokens = yield |
| C10 | parser, lexer, Display | false (floats, `1 .x`, semicolon after inner let, statements that run together): counterexamples; `_partial` for the rest by structural induction; `c10_exact_partial`: exactly which expressions are read back (`PrintsBack`), by lexing the printed text in general, counting tokens, and transforming the derivation of the original text |
| C11 | parser, decimal | arithmetic on digit strings |
| C12 | parser top level | induction over top-level items |
| C13 | evaluator | the model is total by structural recursion; counting by mutual induction |
| C14 | evaluator, value | false (1/0): counterexample; `_partial`: no panic without / % (release) |
| C15 | value | integer lemmas on Int64 |
| C16 | evaluator | direct from the model, stated on effects |
| C17-C20 | evaluator | mutual induction over expressions |
| C21-C22 | evaluator | mutual induction (noninterference); C22 false: counterexamples + `_partial` |
| C23 | Record display | false for failed exchange; `_partial` for the assert part |
| C24-C25 | evaluator | case analysis, association list lemmas |
| C26 | value | false (1 == 1.0, null <= null): counterexamples; `_partial` |
| C27-C28 | template scanner | right-to-left replacement equals left-to-right specification |
| C29 | native | direct, UTF-8 length |
| C30 | writer | bit arithmetic by induction on 7-bit groups |
| C31 | writer + Avro reader spec | false for non-empty arrays (missing terminator): counterexample; exact: an Avro reader understands the file iff no record has headers or asserts |
| C32 | writer + layout decoder | round-trip by induction |
| C33 | writer + sink | false with short writes; `_partial` for full writes |
| C34 | stat | induction over history, permutation invariance |
| C35-C40 | url, request, content | string lemmas; several are false in corner cases: counterexamples + `_partial` |
| C41-C44 | response | byte-level line reading; C42, C44 false in general + `_partial`; `c44_all_partial`: which documents are read as what they denote, exactly; `c44_f64_exact_partial`: the same with `f64` |
| C45-C46 | client | natural-number arithmetic with explicit underflow |
| C47-C48 | stream | list merge; state machine over schedules, invariants |
| C49-C53, C58 | command::test | state machine over schedules, invariants and simulation |
| C54-C55 | command::eval, repl | induction over lines; C55 false: fuel never suffices |
| C56 | parse_duration | decimal parsing; overflow counterexample |
| C57 | read | tree induction |
| C59 | parser, grammar | completeness: induction over grammar derivations |
| C60-C62 | request, response, HTTP/1.1 framing spec | false (line feeds in values, no Content-Length, chunks): counterexamples + exact conditions |
| C63-C64 | evaluator, rules of the language | equivalence by structural induction both ways |
| C65-C66 | test run | invariants of the run; false cases with witnesses |
| C67-C70 | single calls | refinement of the exchange-level model; C70 false (a body cut short): exactly which ends are reported |
| C71 | main, `am test` | from C59, C63 and the start states of C49-C53 |
| C72 | byte positions | boundary lemma for UTF-8, induction over the matches |
| C73 | url, RFC 3986 spec | false in corner cases: counterexamples + the exact part that holds |
| C74 | request, multipart spec | false (boundary not announced): counterexample + `_partial` |
| C75 | parser and evaluator with limited room | false for every amount of room; crash-or-same relation, bound by openings, exact room by nesting |
| C76 | start of the threads, record directory | refinement to the run machine of C49-C53; false cases with witnesses |
| C77 | evaluator | syntactic reads-before-sets analysis (Spec/Flow.lean), two runs in step |
| C78 | reports, statistics | decimal numerals read back; unit by unit |
| C79 | parser, exact grammar | parser to derivation: one pass over the parser functions with fuel bounded by the tokens ahead; derivation to parser: induction over derivations |
| C80 | exit status | case distinction over what `am test` starts (C57, C71, C79) and the start of the threads (C76) |
| C81 | runs, files, statistics | from the invariant of a run (C49-C52), C76 and C78 |
| C82 | parser, eval, repl | replacing the end of a token list in a derivation of the exact grammar (mutual induction); evaluation in states that differ in the request table and the text printed before |
| C83 | eval_call_expr, Client::send, Request, Response | composition of C35, C36, C38, C39, C41, C43, C67, C68, C69, C21, C22 for plain requests and an arbitrary server function |
| C84 | parser, exact grammar | the pass of C79 also yields a derivation of the fault; derivations do not depend on the tokens behind the next one, so prefixes can be completed; false for parentheses after operands that cannot be called |
| C85 | values | rules for how values are written; a written value is a prefix code, so it can be read back; the integer 1 and the text "1" are printed alike, as are 1 and 1.0; assumptions on the texts of floats, the escapes of characters outside ASCII and the order of maps are stated as `FloatsShown` and `PrintsFair` |
| C86, C87 | evaluator, repl, test | one induction over the evaluator relating two runs: two build profiles, or two networks that differ in their clocks; what does not mention overflow checks is equal by computation; then the threads step by step |
| C88 | test | every step of a thread and of the program is matched by the same step with other options; the steps of the statistics thread are left out |
| C89 | evaluator, eval, repl, test with an output that can fail (`Model/Pipe.lean`) | the generic induction over the evaluator with a relation between the two outputs; the record file by an invariant of each thread; false by a run of one thread |
| C90 | parser, evaluator, eval, repl, test | the tables of rearranged items answer every lookup the same; evaluation in two states with the same lookups, by the generic induction; then the threads step by step |
| C91 | response.rs, client.rs on a connection that stays open (`Model/Silent.lean`) | reading an open connection is related line by line to reading every continuation of it; false by a response with a declared length |
| C92 | evaluator, test with exchanges that never end (`Model/Silent.lean`) | the generic induction over the evaluator; a simulation of runs in which the waiting evaluations are left out; false by a run of one thread |
| C93 | parser, evaluator, `am eval`, `am test` on trees that differ in parentheses | the evaluator agrees with itself on the tree without parentheses (mutual induction), then a simulation between states whose requests differ in them; false by an assert in parentheses |
| C94 | value.rs with `f64` (`Model/Float64.lean`) | rounding gives the nearest float (by the binary scale of the quotient) and the nearest float is unique; false by an integer above 2^53 |
| C95 | parser.rs, value.rs, syntax.rs with `f64` | the reader of float texts against a grammar; the shortest decimal by a search over scales; printed texts read back |
| C96 | value.rs with `f64` | conversion of integers is monotone and exact where it can be; false by an integer above 2^53 |
| C97 | syntax.rs `Debug for Expr`, parser | the Debug text is the Display text of the tree with parentheses added, which C10's proof reads back; a derivation of the tree gives one of the tree with parentheses, so the condition is exact; false by a field of a number |
| C98 | evaluator, context, native | simulation of a script by the renamed script (`Proofs/Names`); messages are renamed piece by piece (`RenamedText`) |
| C99 | client, stream, url, evaluator | the network (`Wire`) answers per host and port; `Addressed` reads the address off the message; `FixedTarget` templates |
| C100 | evaluator, command | every message sent is the rendering of a known template (`placeGrade`), the table of requests is fixed (C19), and C99 |
| C101 | command.rs `repl` on the bytes of standard input (`Model/Stdin.lean`) | the reader of lines against the relation `InputLines`, by splitting at the first line feed; characters of a message come from the text that defines it (C02, C09) |
| C102 | response.rs `to_map`, syntax.rs `Expr::eval` | C79 for the body; `Literal` says what the first expression stands for; false by a word |
| C103 | parser.rs, all loops and `parse_expr`, counted (`Model/Steps.lean`) | the counting parser has the results of the parser; every step is paid for by a token passed (`Paid`), and for expressions the steps are exactly `worthAll`; false by the endless loop of C06 |
| C104 | evaluator.rs `eval_expr`, value.rs, native.rs `format`/`append` | room of values (`Spec/Growth.lean` `bulk`): every node multiplies the room by at most a constant, so the room is at most exponential in the nodes (`Fits`); false in proportion: each line `let a = a + a;` doubles, 2^n characters from a text of 12+14n |
| C105 | evaluator.rs, all loops and `eval_expr`, counted (`Model/EvalSteps.lean`) | one relation (`Tally`) says that the counting evaluator has the results of the evaluator, keeps the requests, and takes at most `nodes` steps; exact for `Straight` scripts |
| C106 | response.rs `to_map`, syntax.rs `Expr::eval`, value.rs `Display` | room (`bulk`) of a literal by induction, linear when keys are plain (`PlainKeys`), exponential otherwise; false: in `{{1: 1}: 1}` every level doubles the escapes of the key (`marks`) |
| C107 | lexer.rs, all readers | from the layouts of C01/C02: two neighbouring tokens can touch iff the first is not extended by the first character of the second, which depends on the two kinds only (`needsGap`) |
| C108 | evaluator.rs calls, context.rs, command.rs | the relation `SameFor N` (same variables and records, same meaning of the names in `N`) is kept by blocks, lines, and steps of the threads |
| C109 | command.rs `test`, context.rs `take_records`, stat.rs | invariant of all threads (`Small`) and of the program (`SmallRun`), with `c77_wrote` and the bound of C104; false: `let a = a + a` in a test, and the unbounded channel with `--stat` |
| C110 | response.rs `to_map`, syntax.rs, evaluator.rs, context.rs | `JAt` is a place in a JSON document and `LeafText` its text; `place_value` follows `.name` and `[i]` through the denoted value (C44), C21 and C27 give the two messages. A negative number or an escape in the document is the counterexample |
| C111 | evaluator.rs blocks and calls | `Bare`: a block that calls no request and does not print reads and changes only variables; with `c77_block`, `c77_wrote` and the frame of C17 for the other part |
| C112 | evaluator.rs | the relation `Pair` between the states of the two scripts (same but for the new variable, variables of the expression unchanged), kept by related expressions (`Naming`) |
| C113 | request.rs, response.rs headers | `SameLetters` is pointwise, shown equal to equality in small letters; trimming, lines and colons do not see letter case; the response map is compared with the values under a name in any case (`valuesUnder`) |
| C114 | value.rs texts, evaluator.rs, syntax.rs | two runtimes that differ only in the iteration order of maps (`reordered`); `shownRun` lists the values a run turns into text; by induction over the evaluator both runs agree if these are `OneWay` |
| C115 | request.rs `Request::from`, content.rs | `NamesMedia` is the standard's way to write a media type; `Request.ofStr` compares whole values, so iff with the exact value |
| C116 | evaluator.rs, syntax.rs | `Rule` lists the laws, `Rewritten` closes them under contexts and both directions; mutual induction over the derivation, each rule by unfolding the evaluator; asserts only in their sides because their form is shown |
| C117 | request.rs, evaluator.rs | `Laid` relates templates as lists of pieces; `laid_request` takes both filled messages apart line by line; runs by the `Closed` framework with a relation "held, or the same", where `careful` calls hold the run when a value has a line end |
| C118 | lexer.rs, parser.rs, request.rs | `segment_windows`: lexing commutes with the change; `program_withText`: the grammar relations are kept by any change inside quotes (used with an inverse for the converse); messages by the rules of C117, runs by the same framework |
| C119 | evaluator.rs, command.rs | `silent_stays`: such asserts leave the state as it is; `Judged A B` says what two lists of asserts do, and `Alongside` carries it through evaluation (`Closed` framework) and, as `RunJudged`, through every step of a test run |
| C120 | evaluator.rs, context.rs | another instance of `Judged`, by induction on the permutation |
| C121 | evaluator.rs, value.rs | the rewriting framework of C116 is generic over a rule relation `R` (`Meant R`: every rule keeps result and state up to error wording); the rules of `Turned` are sound because a literal or a plain expression (no calls, lets or crashing operators) evaluates without touching the state; value-level symmetry per operator |
| C122 | request.rs, response.rs, evaluator.rs, value.rs | header lines as an inductive exchange relation; `Unordered` relates values up to the order of map entries at every depth (lookup relation, distinct keys); a relational evaluation proof over two networks and two iteration orders, using that a value without larger maps has only one order |
| C123 | command.rs, evaluator.rs, stat.rs | the invariant of named runs (C49, C50), independence of iterations (C66) and of the clock (C87) put together; counts by C34 |
| C124 | client.rs, time.rs, evaluator.rs, command.rs | records belong to messages in order (C20); the clock readings of an exchange as a hypothesis on networks (`Chronological`, `Earlier`); case analysis of `Client::send` |
| C125 | evaluator.rs, client.rs, native.rs, command.rs | typing relation `Carries` for trust in values (same in both runs, a map in both, unknown); relation between two runs kept by every step of the evaluator, by induction on the typing; growth of what is sent and printed for the runs that stop |
| C126 | value.rs texts, evaluator.rs, native.rs, response.rs, syntax.rs, command.rs | `Model/AnyOrder.lean` gives the evaluator as a relation in which every map may be listed in any order each time; by induction over the evaluator the function of `Model/Evaluator.lean` is one outcome, and the only one where `shownRun` lists only `OneWay` values |
| C127 | evaluator.rs, value.rs, native.rs, response.rs | the graded induction of C13, C14, C17, C19, C20 (`Grade`) repeated for the relation of C126 (`AnyObeys`); the possible outcomes of a request in one lemma (`anyRequest_cases`); templates through `findAll_pieces` (`c127_render`, `c127_format`) |
| C128 | evaluator.rs, native.rs, command.rs | induction over the evaluator for programs that pass the check (`Finds`), and for programs without branches that have a value (`Reveals`); carried over the steps of a test run as an invariant of the workers (`Prepared`), and over the relation of C126 (`AnyFinds`) |
| C129 | evaluator.rs, command.rs | from `quiet_block` (C111) and `c77_block` |
| C130 | evaluator.rs, value.rs, native.rs, response.rs, command.rs | a static check of kinds (`typeOf`); soundness by induction over the evaluator (`Safely`), carried over test runs as an invariant of the workers (`Rehearsed`), and over the relation of Model/AnyOrder.lean (`AnySafely`) |
| C131 | evaluator.rs, context.rs, client.rs, command.rs | a relation between two computations closed under sequencing (`Redone`), over the induction of Proofs/Eval; existence from C20; whole runs by C49, C50 and the file format (C32) |
| C132 | evaluator.rs, context.rs, client.rs, command.rs | rules for where secret values may go (`Guards`), two runs side by side as for C125 (`Guarded`), asserts by C21; whole runs by C49 |
| C133 | evaluator.rs, client.rs, command.rs | both runs compared with the run in which the differing answers never come (C92, `Model/Silent.lean`), which is the same for both networks; records by a relation closed under sequencing (`Leads`) |
| C134 | evaluator.rs, command.rs | templates cut into pieces in the only possible way (C27), texts put in are cut into characters; two-run relation closed under sequencing that also keeps the texts of the variables; simulation of runs |
| C135 | command.rs, value.rs, evaluator.rs | `Model/AnyThreads.lean`: runs as a relation over the any-order evaluator; invariant of each worker in terms of its iterations, permutation of the batches received and sent |
| C136 | command.rs, evaluator.rs, context.rs | two runs side by side under one schedule (`StandsRun`), by induction on the schedule; removal, exchange and naming from C129, C111 and C112, with C77 from one iteration to the next |

## 4. Findings

The properties that are false as stated are claimed `partial`; each has a proved counterexample. The main ones:

* parsing loops for ever on texts such as `a!`, also when such a text is a response body (C06, C51); the REPL spins at end of input (C55);
* `1 / 0` panics (C14); `--threads 0` panics (C49, C71); a duration above 2^64 seconds wraps or panics (C56);
* 45 lines `let a = a + a;` need more memory than any machine has (C104; all other claims assume enough memory);
* a response body of 200 bytes, `{{{1: 1}: 1}: 1}` with 40 levels, makes a string of 2^40 characters (C106);
* a test with `let a = a + a` doubles a variable in every iteration, and with `--stat` the batches waiting in the channel have no bound (C109);
* deeply nested texts, also response bodies, and long flat sums use up the stack (C75; all other claims assume enough stack);
* integers above 2^53 are compared with floats and added to floats after rounding, so `<=` is not transitive (C94, C96);
* asserts: a broken assert can pass, an assert that is no comparison is dropped (C22); a failed exchange without asserts prints PASS (C23);
* records of a failing named test are lost (C58, C65); exchanges at top level are never reported (C65); `--stat` counts nothing for runs
  of all tests (C51); the exit status is 0 when asserts or tests fail (C80); variables of one iteration persist to the next (C66); `--number` is rounded down to a multiple of `--threads` (C49);
* record files cannot be read by an Avro reader when a record has headers or asserts (C31); the port is not stored (C32); a short write
  truncates the file silently (C33);
* requests: unknown methods are sent as GET (C36), line ends of bodies are dropped (C39), no Content-Length and no Host (C61), values with
  line feeds add headers (C60), URLs are cut at a second `://` (C35);
* responses: only the first word of the reason is kept (C42), chunked bodies are not decoded (C62), a body cut short is not noticed (C70),
  an interrupted first read fails the exchange (C67), JSON with negative numbers, escapes or exponents is not read (C44) and reaches
  the next request as `null` or with its backslashes (C110), plain words
  are taken for JSON (C102), a header is found only in the letter case of the server (C113);
* maps are shown in the random order of hash maps, so a message with a map in it differs from run to run (C114);
* `Content-Type: application/x-www-form-urlencoded; charset=utf-8` sends the form as it is written, other letter case too (C115);
* `!` of an integer is bitwise, so `if (!n)` is always taken (C116).
* A value with a blank line moves the end of the head of a message, so the layout of the lines after its placeholder counts (C117).
* Strings over several lines contain the line ends of the file, so they differ between a file with and one without carriage returns (C118).
- C119, C120: a name bound by `let` inside an assert becomes a field of the value that the request returns, and later asserts see it, so an assert can change the script and the order of asserts can matter.
* A failed exchange is recorded with total time 0 and ends when it starts, so `--stat` counts it as the fastest of all (C124).
* A server stops every client that calls it by answering `1!`: the body is parsed as an expression, and the parser never ends, even if the script reads no answer (C125).

## 5. Seeded faults

`seeded/LOG.jsonl` lists edits of single model definitions and what a rebuild of the edited copy reports.

* `kind` is `chosen` for edits written by hand to imitate a bug, with the claim they were meant to break in `claim`. It is `generated` for edits
  made by a script (a swapped comparison, a dropped case, a changed number or text). These were not judged one by one: some of them change no
  claim, and for them `claim` only repeats `claims`.
* `theorems_failed` are the declarations at which the rebuild reports an error.
* `claim_theorems_resting_on_them` are the theorems of the manifest whose proofs use one of these. A lemma can fail because its proof follows the
  old definition while the claim still holds, so this says which claims notice the edit, not that each of these statements is false.
  For generated edits, reruns and the edits of `Model/Silent.lean` the rebuild is stopped 12 seconds after the first error, so both lists can be
  incomplete.
* `theorems_tightened` are theorems added or strengthened because no theorem noticed the edit; `rerun` is a later rebuild of the same edit.
