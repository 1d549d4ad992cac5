{
 "claims": [
  {
   "property": "C01",
   "status": "proved",
   "theorems": [
    "Am.c01_lex_total",
    "Am.c01_lex_fuel"
   ],
   "note": "Token list = init ++ [eof], no eof in init; fuel independence."
  },
  {
   "property": "C02",
   "status": "proved",
   "theorems": [
    "Am.c02_lex_lossless",
    "Am.c02_layout_unique",
    "Am.c02_white"
   ],
   "note": "Layout relation holds for every text and determines the tokens. White space is exactly the Unicode set (c02_white)."
  },
  {
   "property": "C03",
   "status": "proved",
   "theorems": [
    "Am.c03_relex",
    "Am.c03_writeOut"
   ],
   "note": "Any whitespace-separated writing of a text's tokens re-lexes to them; such a writing exists."
  },
  {
   "property": "C04",
   "status": "proved",
   "theorems": [
    "Am.c04_tokens_ok",
    "Am.c04_keywords",
    "Am.c04_numbers",
    "Am.c04_maximal",
    "Am.c04_digits",
    "Am.c04_word_start",
    "Am.c04_word_char"
   ],
   "note": "Well-formedness of every token, keyword/identifier split, numbers, maximality. The sets of characters are listed (c04_digits, c04_word_start, c04_word_char)."
  },
  {
   "property": "C05",
   "status": "partial",
   "theorems": [
    "Am.c05_files_merge",
    "Am.c05_quote_swallows",
    "Am.c05_files_partial",
    "Am.c05_files_noQuote_partial",
    "Am.c05_exact_partial",
    "Am.c05_ends",
    "Am.c05_exact",
    "Am.c05_open_exact",
    "Am.c05_sorts"
   ],
   "note": "False in general (negation proved with witnesses); holds when the first file ends in whitespace and its quotes are closed. Exactly when it holds, for every pair of files: c05_exact_partial with c05_ends (the second file may follow the way the first ends). Exactly, in terms of the texts: c05_exact (first file closed: unless its last token is continued by the first character of the second), c05_open_exact (first file ends in an open quotation), c05_sorts (there is no third sort)."
  },
  {
   "property": "C06",
   "status": "partial",
   "theorems": [
    "Am.c06_enough_fuel",
    "Am.c06_hang_iff",
    "Am.c06_parse_loops",
    "Am.c06_body_loops",
    "Am.c06_let_loops",
    "Am.c06_terminates_partial",
    "Am.c06_tokens_only",
    "Am.c06_exact_partial"
   ],
   "note": "As stated the property is false: c06_parse_loops shows texts on which the parser loops for ever. Proved instead: the fuel used is always enough, so the model result 'hang' means a genuine endless loop, and every text in which no '!' (or other operator without infix rule) stands directly after an operand finishes. c06_exact_partial describes exactly the texts on which the parser does not return: somewhere an operand, with everything built on it, is followed by '!' although the level there would allow an operator."
  },
  {
   "property": "C07",
   "status": "proved",
   "theorems": [
    "Am.c07_same_result",
    "Am.c07_no_panic",
    "Am.c07_in_bounds",
    "Am.c07_expr_no_panic"
   ],
   "note": "Index-based copy of the parser, simulated by the list-based one."
  },
  {
   "property": "C08",
   "status": "partial",
   "theorems": [
    "Am.c08_grouped_partial",
    "Am.c08_strict_partial",
    "Am.c08_let_breaks_precedence",
    "Am.c08_unique",
    "Am.c08_writes_grouped"
   ],
   "note": "False for operands that end in a let expression (c08_let_breaks_precedence); proved for all trees with that exception spelled out, and strictly when no operand ends in let. Uniqueness: the grammar with the precedence table is unambiguous (c08_unique)."
  },
  {
   "property": "C09",
   "status": "proved",
   "theorems": [
    "Am.c09_tokens_kept",
    "Am.c09_fixed_texts"
   ],
   "note": ""
  },
  {
   "property": "C10",
   "status": "partial",
   "theorems": [
    "Am.c10_print_parse_partial",
    "Am.c10_reads_partial",
    "Am.c10_false_let",
    "Am.c10_false_float",
    "Am.c10_false_field",
    "Am.c10_exact_partial",
    "Am.c10_false_block",
    "Am.c10_floats",
    "Am.c10_f64_partial",
    "Am.c10_f64_false"
   ],
   "note": "False for floats that print without a point, for a field of a number literal, and for a let operand ended by a semicolon (counterexamples proved). Proved for every other expression the parser returns, including nested ones (c10_reads_partial). Exact: c10_exact_partial says which expressions of accepted sources are read back from their printed text, assuming only that floats written as literals print as digits, as a float literal denoting them, or as inf. A fourth kind of failure, statements of a block running together, is c10_false_block. For f64 the assumption on literals is proved (c10_floats), so c10_f64_partial has none."
  },
  {
   "property": "C100",
   "status": "proved",
   "theorems": [
    "Am.c100_block",
    "Am.c100_text",
    "Am.c100_repl",
    "Am.c100_test",
    "Am.c100_open"
   ],
   "note": "For blocks (c100_block), texts (c100_text), REPL sessions (c100_repl) and every evaluation in every reachable state of am test (c100_test). c100_open: with a placeholder in the host it is false."
  },
  {
   "property": "C101",
   "status": "proved",
   "theorems": [
    "Am.c101_lines",
    "Am.c101_typed",
    "Am.c101_ends",
    "Am.c101_skip",
    "Am.c101_message",
    "Am.c101_requests"
   ],
   "note": "For all bytes: the items read are the lines of the input (an equivalence); either kind of line end gives the same session; lines that are not UTF-8 drop out; no request known to a session has a message with a line feed. Reading standard input itself is assumed not to fail."
  },
  {
   "property": "C102",
   "status": "partial",
   "theorems": [
    "Am.c102_exact_partial",
    "Am.c102_endless",
    "Am.c102_false"
   ],
   "note": "False as stated: the body hello gives json null (c102_false). Exactly: the entry is there if and only if the body is a program with at least one expression, and it is the literal value of the first one (c102_exact_partial); when the parser does not return from the body there is no map at all (c102_endless)."
  },
  {
   "property": "C103",
   "status": "partial",
   "theorems": [
    "Am.c103_same",
    "Am.c103_steps_partial",
    "Am.c103_chars_partial",
    "Am.c103_exact",
    "Am.c103_false"
   ],
   "note": "False because reading may not end (c103_false, the loop of C06). In every other case at most two steps for each token, and at most two for each character and the end; for texts of expressions the exact number."
  },
  {
   "property": "C104",
   "status": "partial",
   "theorems": [
    "Am.c104_tame",
    "Am.c104_room_partial",
    "Am.c104_room64_partial",
    "Am.c104_text_partial",
    "Am.c104_doubles",
    "Am.c104_false"
   ],
   "note": "False in general (c104_false): every line 'let a = a + a;' doubles the string a, so a text of 12+14n characters makes a string of 2^n characters (c104_doubles); about 45 such lines need more memory than any machine has. What holds: the room of all variables and of the result is at most (b+50)^nodes * m, where nodes counts the nodes of the script and of the asserts its calls run, m bounds the room of the start, of the literals and of every response (c104_room_partial); for Rust's floats the constant is 3050 (c104_tame, c104_room64_partial); in terms of the text alone c104_text_partial. The records and the printed output are not counted."
  },
  {
   "property": "C105",
   "status": "proved",
   "theorems": [
    "Am.c105_same",
    "Am.c105_steps",
    "Am.c105_exact",
    "Am.c105_text_plain",
    "Am.c105_text"
   ],
   "note": "Steps are calls of eval_expr and iterations of the loops of evaluator.rs, counted in Model/EvalSteps.lean, whose results are those of the evaluator (c105_same). The work of one step depends on the size of values (C104), and the time of an exchange and of reading the response (C103, and C06 for endless ones) is not counted."
  },
  {
   "property": "C106",
   "status": "partial",
   "theorems": [
    "Am.c106_room_partial",
    "Am.c106_general_partial",
    "Am.c106_read",
    "Am.c106_bytes_partial",
    "Am.c106_answers_partial",
    "Am.c106_escapes",
    "Am.c106_server",
    "Am.c106_false",
    "Am.c106_false64"
   ],
   "note": "False in general (c106_false, c106_false64): a body is parsed as a script, whose maps may have maps as keys, and such a key becomes the printed map; every level doubles the escapes, so the body {{1: 1}: 1} with n+1 levels, 6+5n characters, makes a key of at least 2^(n+1)-2 characters (c106_escapes, c106_server): 200 bytes from a server use up the memory. What holds: when no key in the body is an array or a map, as in every JSON text, the room is at most (2b+120) times the bytes received, b bounding the texts of floats, 3000 for f64 (c106_room_partial, c106_read, c106_bytes_partial); in general it is at most exponential (c106_general_partial), which bounds the responses of C104 by the bytes received (c106_answers_partial)."
  },
  {
   "property": "C107",
   "status": "proved",
   "theorems": [
    "Am.c107_gaps",
    "Am.c107_every",
    "Am.c107_shortest",
    "Am.c107_program"
   ],
   "note": "For every list of tokens and every choice of gaps: c107_gaps (exactly if), with c107_every (every text is so written), c107_shortest and c107_program (the compact text)."
  },
  {
   "property": "C108",
   "status": "proved",
   "theorems": [
    "Am.c108_block",
    "Am.c108_text",
    "Am.c108_request",
    "Am.c108_test",
    "Am.c108_session",
    "Am.c108_start",
    "Am.c108_begin",
    "Am.c108_run",
    "Am.c108_shadow"
   ],
   "note": "Blocks (c108_block), am eval on two texts (c108_text, c108_request, c108_test), the rest of a session (c108_session), am test with a name (c108_start, c108_begin, c108_run). c108_shadow shows that a request with the name of a built-in function that is called does count as used."
  },
  {
   "property": "C109",
   "status": "partial",
   "theorems": [
    "Am.c109_numbers_partial",
    "Am.c109_room_partial",
    "Am.c109_doubles",
    "Am.c109_false",
    "Am.c109_waiting"
   ],
   "note": "False in general: a test that reads what the iteration before left (let a = a + a) doubles it in every iteration (c109_doubles, c109_false), and with --stat the records of all iterations can wait in the unbounded channel at once (c109_waiting). What holds for every run: the numbers of variables, of records held by a thread and of statistics entries have bounds independent of the number of iterations, and without --stat nothing waits (c109_numbers_partial); for a test that sets its own variables before it reads them everything but the waiting batches takes bounded room (c109_room_partial)."
  },
  {
   "property": "C11",
   "status": "proved",
   "theorems": [
    "Am.c11_literal",
    "Am.c11_every_literal",
    "Am.parseI64_iff"
   ],
   "note": ""
  },
  {
   "property": "C110",
   "status": "partial",
   "theorems": [
    "Am.c110_chain_partial",
    "Am.c110_false"
   ],
   "note": "For documents without escapes, negative numbers and exponents (the documents C44 covers) and first requests whose asserts hold no let and do not panic: the leaf at any place reaches the next request as its text, one message per call. False in general: a negative number arrives as null and an escaped string with its backslashes."
  },
  {
   "property": "C111",
   "status": "proved",
   "theorems": [
    "Am.c111_swap",
    "Am.c111_block",
    "Am.c111_text",
    "Am.c111_needed"
   ],
   "note": "c111_swap is unconditional for independent parts; c111_block and c111_text put it inside a script and a text. c111_needed shows why the conditions are there."
  },
  {
   "property": "C112",
   "status": "proved",
   "theorems": [
    "Am.c112_block",
    "Am.c112_text",
    "Am.c112_needed"
   ],
   "note": "c112_block for a script, c112_text for am eval on two texts; c112_needed shows why the conditions are there."
  },
  {
   "property": "C113",
   "status": "partial",
   "theorems": [
    "Am.c113_request_partial",
    "Am.c113_response_partial",
    "Am.c113_exact",
    "Am.c113_false"
   ],
   "note": "Proved in full for requests and for reading responses; the lookup of a name in a script gives the values under that name in any letter case exactly when all such headers are written in the letters of the lookup (c113_exact, an equivalence). False otherwise: a server that writes location instead of Location makes the same script fail (c113_false)."
  },
  {
   "property": "C114",
   "status": "partial",
   "theorems": [
    "Am.c114_block_partial",
    "Am.c114_text_partial",
    "Am.c114_session_partial",
    "Am.c114_false"
   ],
   "note": "Proved for every run in which no value that is turned into text (holes of messages, keys, arguments of print/println/format, operands of asserts, values in error messages, the final value) has a map with two or more entries; maps may be built, compared, indexed and searched freely. False otherwise: a map with two entries in the hole of a message gives two different messages (c114_false). The model has one iteration order per process, a function of the entries."
  },
  {
   "property": "C115",
   "status": "partial",
   "theorems": [
    "Am.c115_form_partial",
    "Am.c115_sent_raw",
    "Am.c115_multipart_partial",
    "Am.c115_false",
    "Am.c115_false_multipart"
   ],
   "note": "False in general: a parameter such as charset=utf-8 or other letter case makes the body be sent raw (c115_false, c115_false_multipart). Proved exactly: a body with pairs is encoded as a form iff the value is exactly application/x-www-form-urlencoded, multipart likewise; all other bodies are sent raw."
  },
  {
   "property": "C116",
   "status": "partial",
   "theorems": [
    "Am.c116_expr_partial",
    "Am.c116_block_partial",
    "Am.c116_text_partial",
    "Am.c116_tests_partial",
    "Am.c116_exact",
    "Am.c116_false",
    "Am.c116_false_text",
    "Am.c116_false_logic"
   ],
   "note": "False for all values: ! of an integer is bitwise and counts as true, so exchanging the branches of if (!5) changes the result (c116_false, c116_false_text, c116_false_logic); c116_exact says for which values the laws of logic hold. Proved for expressions, blocks, texts and tests when the laws of logic are used for expressions that are true or false by their form."
  },
  {
   "property": "C117",
   "status": "partial",
   "theorems": [
    "Am.c117_message",
    "Am.c117_block_partial",
    "Am.c117_text_partial",
    "Am.c117_tests",
    "Am.c117_false"
   ],
   "note": "False in general (c117_false): values are put into the message as text before it is taken apart, so a value with a blank line ends the head, and the indentation of what follows becomes body. Proved for every run in which the values put into messages stay in their lines: c117_message for one message, c117_block_partial for runs of statements (careful calls hold the run when a value does not), c117_text_partial for whole scripts; c117_tests (full): tests, statements and request names of a script do not depend on the layout."
  },
  {
   "property": "C118",
   "status": "partial",
   "theorems": [
    "Am.c118_items",
    "Am.c118_accepts",
    "Am.c118_program",
    "Am.c118_message",
    "Am.c118_block_partial",
    "Am.c118_text_partial",
    "Am.c118_tests_partial",
    "Am.c118_false",
    "Am.c118_false_value"
   ],
   "note": "False in general: a string over several lines gets the carriage returns (c118_false), and a value that ends with a carriage return at the end of a line of a message keeps it (c118_false_value). Proved in full for reading: c118_items (the changed text is the same program with the line ends inside quotes changed) and c118_accepts (accepted, rejected, endless alike, for every text). Proved for runs when no string runs over several lines and no value put into a message has a carriage return: c118_program, c118_message, c118_block_partial, c118_text_partial, c118_tests_partial."
  },
  {
   "property": "C119",
   "status": "partial",
   "theorems": [
    "Am.c119_block_partial",
    "Am.c119_text_partial",
    "Am.c119_start_partial",
    "Am.c119_run_partial",
    "Am.c119_false",
    "Am.c119_false_text"
   ],
   "note": "False for asserts that bind a name (it becomes a field of the response value, c119_false), print or crash (c119_false_text); proved for all other asserts, for blocks, texts and test runs under every schedule."
  },
  {
   "property": "C12",
   "status": "proved",
   "theorems": [
    "Am.c12_tables",
    "Am.c12_last"
   ],
   "note": ""
  },
  {
   "property": "C120",
   "status": "partial",
   "theorems": [
    "Am.c120_block_partial",
    "Am.c120_text_partial",
    "Am.c120_start_partial",
    "Am.c120_run_partial",
    "Am.c120_verdict",
    "Am.c120_false"
   ],
   "note": "False for asserts that bind a name another assert reads (c120_false); proved for asserts that bind no name and do not print, for blocks, texts and test runs under every schedule, with the verdict (c120_verdict)."
  },
  {
   "property": "C121",
   "status": "partial",
   "theorems": [
    "Am.c121_expr_partial",
    "Am.c121_block_partial",
    "Am.c121_text_partial",
    "Am.c121_tests_partial",
    "Am.c121_sum",
    "Am.c121_equal",
    "Am.c121_assert",
    "Am.c121_floats",
    "Am.c121_false",
    "Am.c121_false_text"
   ],
   "note": "False for all operands (c121_false: what operands print is printed in the other order; a crash next to a failure). Proved when one operand is a literal or both are plain (no calls, no let, no operator that can crash): for expressions, blocks, texts, tests, any set of places at once. Exact condition for + (c121_sum), symmetry of == for all proper values (c121_equal), asserts (c121_assert); IEEE doubles commute (c121_floats)."
  },
  {
   "property": "C122",
   "status": "partial",
   "theorems": [
    "Am.c122_request",
    "Am.c122_wire",
    "Am.c122_response",
    "Am.c122_block_partial",
    "Am.c122_text_partial",
    "Am.c122_session_partial",
    "Am.c122_report",
    "Am.c122_false"
   ],
   "note": "Requests and responses in full. Runs: proved for every run that turns no map with two or more entries into text (also between two iteration orders); false otherwise (c122_false: the map of headers sent as text)."
  },
  {
   "property": "C123",
   "status": "partial",
   "theorems": [
    "Am.c123_turns_partial",
    "Am.c123_counts_partial",
    "Am.c123_threads_partial",
    "Am.c123_false",
    "Am.c123_false_remainder"
   ],
   "note": "c123_turns_partial: in every ended run without error, stop or timeout of a test that sets its variables before it reads them, every thread executes the test n / t times and every execution sends the messages, prints the text and records the exchanges (up to times) of a single run; c123_counts_partial: the statistics count accordingly; c123_threads_partial: two runs with numbers of threads dividing n send the same and count the same. False otherwise: a test that reads what the iteration before has left sends other messages on two threads (c123_false), and the remainder of n / t is not executed (c123_false_remainder)."
  },
  {
   "property": "C124",
   "status": "partial",
   "theorems": [
    "Am.c124_order",
    "Am.c124_iterations",
    "Am.c124_tells_partial",
    "Am.c124_failed",
    "Am.c124_false"
   ],
   "note": "Order in time: proved for every script, however it ends (c124_order), and for all iterations of a thread (c124_iterations). Start, end and total: proved for every exchange whose answer was read (c124_tells_partial). False for failed exchanges: they end when they start and have total 0 (c124_failed, exact), for example a connection broken after 30 seconds (c124_false), so that statistics count them with 0 ms."
  },
  {
   "property": "C125",
   "status": "proved",
   "theorems": [
    "Am.c125_block",
    "Am.c125_text",
    "Am.c125_run",
    "Am.c125_reads",
    "Am.c125_stops"
   ],
   "note": "Trust in variables and expressions is a small typing relation (Spec/Answers.lean). c125_reads and c125_stops show what happens without the condition."
  },
  {
   "property": "C126",
   "status": "proved",
   "theorems": [
    "Am.c126_allowed",
    "Am.c126_block",
    "Am.c126_text",
    "Am.c126_session",
    "Am.c126_twice"
   ],
   "note": "A second model of the evaluator in which evaluation is a relation: every turning of a value into text may take the entries of each map in any order. Every run of the first model is one of its runs, and the only one if the values turned into text (Spec/Shown.lean) have no map with two or more entries. c126_twice shows that the condition is needed, and what the first model leaves out."
  },
  {
   "property": "C127",
   "status": "proved",
   "theorems": [
    "Am.c127_terminates",
    "Am.c127_bounded",
    "Am.c127_frame",
    "Am.c127_records",
    "Am.c127_no_panic",
    "Am.c127_render",
    "Am.c127_format"
   ],
   "note": "Over the model of C126 in which every listing of a map picks any order; no condition on the values shown. BodiesParse, safe operators and monotone clocks are the hypotheses of C13 and C14. c127_render and c127_format are C27 and C28 in every order: exactly which texts a template and format can give."
  },
  {
   "property": "C128",
   "status": "proved",
   "theorems": [
    "Am.c128_names",
    "Am.c128_sent",
    "Am.c128_sure",
    "Am.c128_exact",
    "Am.c128_needed",
    "Am.c128_run",
    "Am.c128_am_test",
    "Am.c128_any_names",
    "Am.c128_any_sent",
    "Am.c128_any_sure"
   ],
   "note": "KnownList (Spec/Flow.lean) is the check on variables, CallsKnown the one on calls. c128_exact: the check misses nothing for scripts without if, && and ||; with an if it may reject a script that runs (c128_needed). c128_run and c128_am_test carry this to am test: no iteration of any test in any thread fails for a missing name, under any schedule, when the top level and the tests pass the check. c128_any_names, c128_any_sent and c128_any_sure say the same when every hash map may list its entries in any order each time it is turned into text."
  },
  {
   "property": "C129",
   "status": "proved",
   "theorems": [
    "Am.c129_block",
    "Am.c129_again",
    "Am.c129_text",
    "Am.c129_needed"
   ],
   "note": "QuietIn as in C111, KnownList as in C77. c129_needed shows that each condition is needed."
  },
  {
   "property": "C13",
   "status": "proved",
   "theorems": [
    "Am.c13_terminates",
    "Am.c13_bounded",
    "Am.c13_no_nesting"
   ],
   "note": "termination is conditional on received bodies being parsable in finite time (C06 is only partial: the parser loops on a!); the bound on requests is unconditional"
  },
  {
   "property": "C130",
   "status": "proved",
   "theorems": [
    "Am.c130_block",
    "Am.c130_value",
    "Am.c130_slots",
    "Am.c130_needed",
    "Am.c130_run",
    "Am.c130_am_test",
    "Am.c130_written",
    "Am.c130_any",
    "Am.c130_any_value"
   ],
   "note": "typeOf is the check, written over the syntax alone; c130_slots ties its count of placeholders to the decomposition of texts used for C27. c130_value excludes crashes by the condition of C14. c130_needed shows scripts that fail without the check and one that is rejected though it runs. c130_written: the value exists under the finer condition on operators from C14. c130_any and c130_any_value say the same when every hash map may list its entries in any order each time it is turned into text (Model/AnyOrder.lean)."
  },
  {
   "property": "C131",
   "status": "proved",
   "theorems": [
    "Am.c131_block",
    "Am.c131_exists",
    "Am.c131_again",
    "Am.c131_thread",
    "Am.c131_thread_exists",
    "Am.c131_determined",
    "Am.c131_stream",
    "Am.c131_file",
    "Am.c131_messages",
    "Am.c131_run"
   ],
   "note": "Runs that crash or hang are left out: their last exchange has no record (C20). The messages sent being the same, the parsed requests are the same for the same multipart boundary. Threads of am test: c131_thread (replayed iteration by iteration), c131_thread_exists; the responses determine the run (c131_determined, c131_stream), and so does the record file (c131_file). For whole runs of `am test`: two runs that leave the same record files have sent the same messages and printed the same (`c131_run`)."
  },
  {
   "property": "C132",
   "status": "proved",
   "theorems": [
    "Am.c132_block",
    "Am.c132_message",
    "Am.c132_none",
    "Am.c132_text",
    "Am.c132_thread",
    "Am.c132_branch",
    "Am.c132_messages",
    "Am.c132_run"
   ],
   "note": "c132_block for statements, c132_text for am eval and lines of a session, c132_thread for the iterations of a thread; c132_message reads off single messages, c132_none the case without such requests. c132_branch: a script that branches on a secret gives it away. The rules are those of the relation Guards (Spec/Secrets.lean). Whole runs of `am test`: `c132_run`."
  },
  {
   "property": "C133",
   "status": "proved",
   "theorems": [
    "Am.c133_block",
    "Am.c133_first",
    "Am.c133_text",
    "Am.c133_exact",
    "Am.c133_session"
   ],
   "note": "`c133_block` for any set of exchanges in which the networks differ, relative to the run in which these answers never come (C92); `c133_first` counts messages, `c133_text` is for `am eval` and lines of a session; `c133_exact` shows that the message after that can differ. c133_session: whole sessions."
  },
  {
   "property": "C134",
   "status": "proved",
   "theorems": [
    "Am.c134_fill",
    "Am.c134_block",
    "Am.c134_after",
    "Am.c134_text",
    "Am.c134_start",
    "Am.c134_run",
    "Am.c134_begin",
    "Am.c134_plain",
    "Am.c134_needed",
    "Am.c134_set_again",
    "Am.c134_session"
   ],
   "note": "proved: filling in (c134_fill), scripts (c134_block; c134_after where the script sets the variables first), am eval (c134_text), am test (c134_start, c134_run). c134_plain: texts without an opening brace may always be put in. c134_needed and c134_set_again: programs that differ if the text forms a new placeholder, or if the variable is set anew. c134_session: the rest of a session."
  },
  {
   "property": "C135",
   "status": "proved",
   "theorems": [
    "Am.c135_allowed",
    "Am.c135_named",
    "Am.c135_all",
    "Am.c135_records",
    "Am.c135_no_error",
    "Am.c135_only"
   ],
   "note": "c135_allowed: the runs of the model with one order are among the runs considered. c135_named: named tests, output, record files, number of iterations, statistics. c135_all: all tests. c135_records: the records of an iteration are those of the messages it sent. c135_no_error: tests that pass the check of C130 do not end with an error. c135_only: when the tests turn no map with two or more entries into text, the runs are exactly those of the model with one order."
  },
  {
   "property": "C136",
   "status": "proved",
   "theorems": [
    "Am.c136_run",
    "Am.c136_named",
    "Am.c136_all",
    "Am.c136_same",
    "Am.c136_remove",
    "Am.c136_removed",
    "Am.c136_needed",
    "Am.c136_swap",
    "Am.c136_name"
   ],
   "note": "c136_run: step by step, under every schedule. c136_named, c136_all: for am test with a name and for all tests. c136_same: tests equal from every state. c136_remove, c136_removed: removing statements as in C129. c136_needed: what stands before the removed statements must not read their variables, as the next iteration still has them. c136_swap, c136_name: changing places (C111) and naming expressions (C112) in tests."
  },
  {
   "property": "C14",
   "status": "partial",
   "theorems": [
    "Am.c14_division_panics",
    "Am.c14_no_panic_partial",
    "Am.c14_operator",
    "Am.c14_minus",
    "Am.c14_where_partial",
    "Am.c14_site",
    "Am.c14_written_partial",
    "Am.c14_literal_divisor",
    "Am.c14_literal_shift",
    "Am.c14_literal_other",
    "Am.c14_unchecked_other"
   ],
   "note": "false as stated: 1 / 0 panics. Proved: the operands on which operators crash (c14_operator, c14_minus), a crash happens only where an operator of the script or of an assert of a known request is applied to such operands, given monotone clocks (c14_where_partial), and it does happen there (c14_site); hence no panic without the operators that can panic. Missing: the claim for / and % and, in checked builds, overflow A static condition that suffices: each operator does not crash on anything its operands may be by the way they are written (c14_written_partial), met for instance by division by a literal other than 0 and -1."
  },
  {
   "property": "C15",
   "status": "proved",
   "theorems": [
    "Am.c15_add",
    "Am.c15_sub",
    "Am.c15_mul",
    "Am.c15_neg",
    "Am.c15_div_rem",
    "Am.c15_div_rem_unique",
    "Am.c15_bitwise",
    "Am.c15_not",
    "Am.c15_shl",
    "Am.c15_shr",
    "Am.c15_shift_range",
    "Am.c15_mixed"
   ],
   "note": "integer operators checked against mathematical integers in both build profiles; mixed int/float goes through the float oracle"
  },
  {
   "property": "C16",
   "status": "proved",
   "theorems": [
    "Am.c16_or",
    "Am.c16_and",
    "Am.c16_if"
   ],
   "note": ""
  },
  {
   "property": "C17",
   "status": "proved",
   "theorems": [
    "Am.c17_let",
    "Am.c17_let_fails",
    "Am.c17_frame",
    "Am.c17_frame_expr"
   ],
   "note": ""
  },
  {
   "property": "C18",
   "status": "proved",
   "theorems": [
    "Am.c18_empty",
    "Am.c18_last",
    "Am.c18_first_error",
    "Am.c18_cases",
    "Am.c18_operands",
    "Am.c18_list",
    "Am.c18_call"
   ],
   "note": ""
  },
  {
   "property": "C19",
   "status": "proved",
   "theorems": [
    "Am.c19_requests_fixed"
   ],
   "note": ""
  },
  {
   "property": "C20",
   "status": "proved",
   "theorems": [
    "Am.c20_records",
    "Am.c20_count"
   ],
   "note": "when evaluation panics or hangs the last message may have no record; stated in the theorem"
  },
  {
   "property": "C21",
   "status": "proved",
   "theorems": [
    "Am.c21_only_response",
    "Am.c21_isolated",
    "Am.c21_returns_response"
   ],
   "note": ""
  },
  {
   "property": "C22",
   "status": "partial",
   "theorems": [
    "Am.c22_recorded_partial",
    "Am.c22_count_partial",
    "Am.c22_broken_fails_partial",
    "Am.c22_broken_passes",
    "Am.c22_broken_ne_passes",
    "Am.c22_dropped",
    "Am.c22_conjunction_dropped",
    "Am.c22_exact",
    "Am.c22_broken_exact"
   ],
   "note": "false as stated: an assert with two operands that cannot be evaluated passes, missing != 1 passes, and asserts that are not comparisons are dropped. Proved for every list of asserts: the comparisons are recorded in order with their outcome, and asserts never abort the call (c22_recorded_partial, c22_count_partial); one result per assert exactly when all are comparisons (c22_exact); exactly which broken asserts are recorded as failed (c22_broken_exact)"
  },
  {
   "property": "C23",
   "status": "partial",
   "theorems": [
    "Am.c23_verdict_partial",
    "Am.c23_failed_exchange_passes",
    "Am.c23_exact",
    "Am.c23_assert_text"
   ],
   "note": "false as stated: a failed exchange without asserts prints PASS. Proved: PASS iff every recorded assert is true. c23_exact: the claim holds for exactly the records whose exchange succeeded or that have a failed assert c23_assert_text: the text of an assert by itself."
  },
  {
   "property": "C24",
   "status": "proved",
   "theorems": [
    "Am.c24_index",
    "Am.c24_unchanged"
   ],
   "note": "arrays shorter than 2^63 items, as in Rust"
  },
  {
   "property": "C25",
   "status": "proved",
   "theorems": [
    "Am.c25_literal",
    "Am.c25_lookup",
    "Am.c25_field_is_index",
    "Am.c25_not_container"
   ],
   "note": ""
  },
  {
   "property": "C26",
   "status": "partial",
   "theorems": [
    "Am.c26_mirror",
    "Am.c26_ne",
    "Am.c26_exclusive",
    "Am.c26_eq_le_ge_partial",
    "Am.c26_eq_not_le",
    "Am.c26_le_ge_eq",
    "Am.c26_mixed_never_equal",
    "Am.c26_int",
    "Am.c26_str",
    "Am.c26_unrelated",
    "Am.c26_unrelated_kinds",
    "Am.c26_equal",
    "Am.c26_exact_partial",
    "Am.c26_floats",
    "Am.c26_f64"
   ],
   "note": "false as stated: null == null but not null <= null (also booleans, arrays, maps). The implication is proved for numbers and strings; everything else is proved. f64 comparison is assumed consistent (FloatsCompare) c26_exact_partial: equal values are <= and >= each other exactly if they are numbers or strings. For f64 the assumption is proved (c26_floats), so c26_f64 has none."
  },
  {
   "property": "C27",
   "status": "proved",
   "theorems": [
    "Am.c27_render"
   ],
   "note": ""
  },
  {
   "property": "C28",
   "status": "proved",
   "theorems": [
    "Am.c28_format",
    "Am.c28_format_needs_string",
    "Am.c28_print",
    "Am.c28_called"
   ],
   "note": ""
  },
  {
   "property": "C29",
   "status": "proved",
   "theorems": [
    "Am.c29_length_str",
    "Am.c29_length_arr",
    "Am.c29_length_map",
    "Am.c29_length_err",
    "Am.c29_append",
    "Am.c29_append_err",
    "Am.c29_pure",
    "Am.c29_length_computed"
   ],
   "note": ""
  },
  {
   "property": "C30",
   "status": "proved",
   "theorems": [
    "Am.c30_roundtrip",
    "Am.c30_prefix_free"
   ],
   "note": "encode_long round-trips through an independent Avro reader; 1..10 bytes; prefix-free."
  },
  {
   "property": "C31",
   "status": "partial",
   "theorems": [
    "Am.c31_avro_partial",
    "Am.c31_false",
    "Am.c31_header",
    "Am.c31_exact"
   ],
   "note": "False: non-empty arrays are not ended by a zero count (c31_false, concrete file unreadable). Proved: header conforms; files of records without headers and asserts read back exactly.  The condition is exact: an Avro reader recovers the written records if and only if no record has a header or an assert."
  },
  {
   "property": "C32",
   "status": "partial",
   "theorems": [
    "Am.c32_recover_block",
    "Am.c32_recover_file",
    "Am.c32_unambiguous_partial",
    "Am.c32_file_unambiguous",
    "Am.c32_false_port",
    "Am.c32_false_empty"
   ],
   "note": "Proved: every stored field is recovered and equal bytes imply equal data; false corners with witnesses: port not stored, batch without records stores no name/thread/number."
  },
  {
   "property": "C33",
   "status": "partial",
   "theorems": [
    "Am.c33_whole_partial",
    "Am.c33_marker",
    "Am.c33_crash",
    "Am.c33_false",
    "Am.c33_exact"
   ],
   "note": "False for sinks that accept part of a buffer (c33_false). Proved for sinks taking whole buffers at every number of calls, and that a cut inside a write leaves whole blocks plus a proper prefix of one. c33_exact: whole exactly when every call takes its whole buffer."
  },
  {
   "property": "C34",
   "status": "proved",
   "theorems": [
    "Am.c34_exact",
    "Am.c34_order",
    "Am.c34_order_entries"
   ],
   "note": "Statistics equal those of the filtered timings; order-independent (u128 as naturals: fewer than 2^128 ms in total)."
  },
  {
   "property": "C35",
   "status": "partial",
   "theorems": [
    "Am.c35_parse_partial",
    "Am.c35_cut",
    "Am.c35_false_path",
    "Am.c35_display_partial",
    "Am.c35_false_display",
    "Am.url_shape",
    "Am.c35_read"
   ],
   "note": "False as stated in two ways. URLs with :// in the path or query are cut there (c35_false_path, c35_cut gives the result); the display omits the port (c35_false_display), and parsing it back gives the URL exactly when the port is the default one (c35_display_partial, an equivalence). Proved for every other URL text. c35_read gives what is read from every text."
  },
  {
   "property": "C36",
   "status": "partial",
   "theorems": [
    "Am.c36_roundtrip",
    "Am.c36_exact",
    "Am.c36_sent_partial",
    "Am.c36_sent_other",
    "Am.c36_false"
   ],
   "note": "Round trip of all keywords and of all other texts proved. That a message is sent with the method written is false: an unknown or lower-case method is sent as GET (c36_false, c36_sent_other); proved for the nine known methods (c36_sent_partial)."
  },
  {
   "property": "C37",
   "status": "proved",
   "theorems": [
    "Am.c37_parse",
    "Am.c37_unique",
    "Am.c37_total"
   ],
   "note": "For all messages; HeaderBlock, Lines, Words and Trims are relations independent of the model, shown total and functional."
  },
  {
   "property": "C38",
   "status": "proved",
   "theorems": [
    "Am.c38_wire",
    "Am.c38_no_lf",
    "Am.request_shape",
    "Am.c38_bare_cr"
   ],
   "note": "For all messages, with an independent reader of request bytes. c38_bare_cr records that a bare carriage return inside a header value is sent as is."
  },
  {
   "property": "C39",
   "status": "partial",
   "theorems": [
    "Am.c39_partial",
    "Am.c39_lines",
    "Am.c39_false",
    "Am.c39_exact"
   ],
   "note": "False as stated: the line ends of a body of several lines are dropped (c39_false). c39_lines gives the bytes for every body: its lines without line ends; one-line bodies are sent as written (c39_partial). c39_exact: as written exactly for one-line bodies."
  },
  {
   "property": "C40",
   "status": "proved",
   "theorems": [
    "Am.c40_form",
    "Am.c40_exact",
    "Am.c40_total",
    "Am.c40_pairs",
    "Am.c40_blank"
   ],
   "note": "For all messages and all Unicode names and values, with an independent decoder; c40_exact gives the bytes themselves by the rules of the URL Standard. Values keep the blank after the colon (c40_blank)."
  },
  {
   "property": "C41",
   "status": "proved",
   "theorems": [
    "Am.c41_parts",
    "Am.c41_total",
    "Am.c41_wellformed",
    "Am.c41_valid"
   ],
   "note": "For every byte stream: c41_parts gives the parts for every UTF-8 text (total and functional relation, c41_total), c41_wellformed instantiates it for well-formed responses, c41_valid shows a response is produced exactly for streams that are valid UTF-8 and end without I/O error, and that reading neither panics nor loops."
  },
  {
   "property": "C42",
   "status": "partial",
   "theorems": [
    "Am.c42_partial",
    "Am.c42_first_word",
    "Am.c42_false",
    "Am.c42_exact"
   ],
   "note": "False as stated: only the first word of the phrase is kept (c42_false, c42_first_word). Proved for phrases of at most one word. c42_exact: preserved exactly when it has no white space."
  },
  {
   "property": "C43",
   "status": "proved",
   "theorems": [
    "Am.c43_headers",
    "Am.c43_map",
    "Am.c43_status",
    "Am.baseMap_get"
   ],
   "note": "For every header sequence and every response."
  },
  {
   "property": "C44",
   "status": "partial",
   "theorems": [
    "Am.c44_json_partial",
    "Am.c44_false_negative",
    "Am.c44_false_escape",
    "Am.c44_false_exponent",
    "Am.c44_exact_partial",
    "Am.c44_all_partial",
    "Am.c44_number",
    "Am.c44_f64_partial",
    "Am.c44_f64_exact_partial"
   ],
   "note": "False for negative numbers, escapes and exponents (counterexamples proved). Proved for all other JSON documents in every layout. c44_exact_partial: for documents without escaped quotes and exponents and with distinct names, json is the value denoted if and only if there is no escape and no negative number. c44_all_partial: exactly, for every document with distinct names and no escaped quote in a name: json is the value denoted if and only if the document has no escapes, negative numbers and exponents and its numbers are representable, or is a single float whose exponent changes nothing. With f64 nothing is assumed of floats: c44_number (a number with a fraction or an exponent denotes the nearest float), c44_f64_partial, c44_f64_exact_partial."
  },
  {
   "property": "C45",
   "status": "proved",
   "theorems": [
    "Am.c45_sum",
    "Am.c45_no_panic"
   ],
   "note": "For every exchange with monotone clock readings; durations are natural numbers of nanoseconds, and a subtraction below zero is a panic in the model."
  },
  {
   "property": "C46",
   "status": "proved",
   "theorems": [
    "Am.c46_reported",
    "Am.c46_says"
   ],
   "note": "For every message and network behaviour with monotone clock readings; I/O errors are assumed to have a non-empty text (Speaks). c46_says: what the error text says when the answer cannot be read."
  },
  {
   "property": "C47",
   "status": "proved",
   "theorems": [
    "Am.c47_alternates",
    "Am.c47_perm",
    "Am.c47_order",
    "Am.c47_addresses",
    "Am.c47_families",
    "Am.c47_first"
   ],
   "note": "c47_alternates fixes every position of the merged list; attempts follow attemptOrder by definition of Race.init."
  },
  {
   "property": "C48",
   "status": "proved",
   "theorems": [
    "Am.c48_connected",
    "Am.c48_failed",
    "Am.c48_some_up",
    "Am.c48_progress",
    "Am.c48_ends",
    "Am.c48_result",
    "Am.c48_direct"
   ],
   "note": "Every schedule of the race; every schedule has at most 4n+2 steps and a state with no step left is an end state. Whether an attempt succeeds is an arbitrary function of the address."
  },
  {
   "property": "C49",
   "status": "partial",
   "theorems": [
    "Am.c49_at_most",
    "Am.c49_per_thread",
    "Am.c49_exact_partial",
    "Am.c49_false",
    "Am.c49_no_threads"
   ],
   "note": "At most n executions in every run (proved). Exactly n only if the number of threads divides n: the remainder of number / threads is dropped (c49_false: 2 threads, --number 1, no execution at all); with 0 threads the program panics."
  },
  {
   "property": "C50",
   "status": "proved",
   "theorems": [
    "Am.c50_named",
    "Am.c50_all",
    "Am.c50_readable",
    "Am.c50_distinct_files",
    "Am.c50_file_name"
   ],
   "note": "Stated for the bytes handed to the file; short writes of the sink are C33. The block of an iteration appears when its records have been printed. The name to the last character: c50_file_name."
  },
  {
   "property": "C51",
   "status": "partial",
   "theorems": [
    "Am.c51_complete_partial",
    "Am.c51_no_deadlock",
    "Am.c51_no_endless_run",
    "Am.c51_can_finish",
    "Am.c51_finished_final",
    "Am.c51_false_all_tests",
    "Am.c51_false_endless",
    "Am.c51_all_tests"
   ],
   "note": "For a named test: complete, exactly once, independent of the schedule, no deadlock, no endless run. False for runs of all tests (c51_false_all_tests: --stat counts nothing) and when a response body sends the parser into an endless loop (c51_false_endless). Without a test name nothing is counted, and the statistics thread may end before the tests (c51_all_tests)."
  },
  {
   "property": "C52",
   "status": "proved",
   "theorems": [
    "Am.c52_no_new_iteration",
    "Am.c52_stays_stopped",
    "Am.c52_still_recorded"
   ],
   "note": "The stop flag exists only for named tests. An evaluation that never returns (C06) is not ended by it, see c51_false_endless."
  },
  {
   "property": "C53",
   "status": "proved",
   "theorems": [
    "Am.c53_start",
    "Am.c53_isolated"
   ],
   "note": "Two runs with different other threads and different schedules."
  },
  {
   "property": "C54",
   "status": "proved",
   "theorems": [
    "Am.c54_session",
    "Am.c54_survives",
    "Am.c54_variable_kept",
    "Am.c54_request_kept",
    "Am.c54_line",
    "Am.c54_unparsed",
    "Am.c54_failure_keeps"
   ],
   "note": "Lines are handled one after the other in the state left by the previous ones; lines that panic (C14) or do not terminate in the parser (C06) end the session and are named in c54_survives."
  },
  {
   "property": "C55",
   "status": "partial",
   "theorems": [
    "Am.c55_exit_partial",
    "Am.c55_false",
    "Am.c55_false_empty"
   ],
   "note": "The exit half holds; at the end of the input the REPL spins for ever (c55_false), so the property is false as stated."
  },
  {
   "property": "C56",
   "status": "partial",
   "theorems": [
    "Am.c56_value_partial",
    "Am.c56_accepted_partial",
    "Am.c56_rejected",
    "Am.c56_rejects_other",
    "Am.c56_false_overflow",
    "Am.c56_false_plus",
    "Am.c56_no_unit"
   ],
   "note": "Exact when the seconds fit in 64 bits; false for larger values (wraps or panics) and for a leading plus sign, which is accepted."
  },
  {
   "property": "C57",
   "status": "proved",
   "theorems": [
    "Am.c57_read",
    "Am.c57_unreadable",
    "Am.c57_unique"
   ],
   "note": "For every directory tree with distinct names per directory; an unreadable file makes the program panic."
  },
  {
   "property": "C58",
   "status": "partial",
   "theorems": [
    "Am.c58_all_partial",
    "Am.c58_named_loses",
    "Am.c58_false"
   ],
   "note": "Holds for runs of all tests; in a run of a named test the records of the failing iteration are always lost (c58_named_loses), with a concrete witness in c58_false."
  },
  {
   "property": "C59",
   "status": "proved",
   "theorems": [
    "Am.c59_complete",
    "Am.c59_expression"
   ],
   "note": "Completeness of the parser for the grammar in Spec/Grammar.lean."
  },
  {
   "property": "C60",
   "status": "partial",
   "theorems": [
    "Am.c60_headers_partial",
    "Am.c60_injection",
    "Am.c60_cut",
    "Am.c60_exact_partial",
    "Am.c60_line",
    "Am.c60_line_exact"
   ],
   "note": "Proved when the texts of the variables contain no line feed (c60_headers_partial); false in general: a value with a line feed adds headers (c60_injection) or ends them (c60_cut). c60_exact_partial: when no variable mentioned in the request line holds a line feed, the written headers arrive if and only if no header value contains a line feed, except white space after the last value; variables in the body do not matter. c60_line and c60_line_exact cover line feeds in the request line: its text after the first line feed adds headers before the written ones, and a blank line in it drops the written ones; the written headers arrive if and only if that text has neither, or repeats exactly the written headers before a blank line."
  },
  {
   "property": "C61",
   "status": "partial",
   "theorems": [
    "Am.c61_exact",
    "Am.c61_partial",
    "Am.c61_undeclared",
    "Am.c61_false",
    "Am.c61_host",
    "Am.c61_no_host"
   ],
   "note": "Exact condition without transfer coding (c61_exact); proved when the template writes a correct Content-Length (c61_partial); false otherwise, as the program adds neither Content-Length nor Host (c61_undeclared, c61_false, c61_host, c61_no_host)."
  },
  {
   "property": "C62",
   "status": "partial",
   "theorems": [
    "Am.c62_everything",
    "Am.c62_exact",
    "Am.c62_partial",
    "Am.c62_false"
   ],
   "note": "The body delivered is everything after the empty line (c62_everything). It is the message body exactly when the message is not chunked and nothing follows it (c62_exact, c62_partial); false for chunked responses (c62_false)."
  },
  {
   "property": "C63",
   "status": "proved",
   "theorems": [
    "Am.c63_expr",
    "Am.c63_block",
    "Am.c63_unique",
    "Am.c63_proper",
    "Am.operates_iff",
    "Am.negates_iff",
    "Am.indexes_iff",
    "Am.fields_iff",
    "Am.builtin_sound",
    "Am.builtin_total"
   ],
   "note": "The rules are Spec/Semantics.lean. Given from elsewhere: printing of values and expressions (C44), the exchange with the network (C37-C46), the map of a response (C43)."
  },
  {
   "property": "C64",
   "status": "proved",
   "theorems": [
    "Am.c64_program",
    "Am.extend_items",
    "Am.c64_every"
   ],
   "note": "Text to printed outcome, as an equivalence: the grammar (Layout, WritesSource) fixes the items, the rules of Spec/Semantics fix the outcome; the implementation does exactly that. Assumes the variables of the session are proper values (maps with distinct keys), which c63_proper preserves. c64_every covers every text, not only those of the published grammar."
  },
  {
   "property": "C65",
   "status": "partial",
   "theorems": [
    "Am.c65_named_partial",
    "Am.c65_all_partial",
    "Am.c65_records",
    "Am.c65_false"
   ],
   "note": "False as stated: an exchange at the top level is never reported (c65_false), and a failing evaluation of a named test loses its records (c58_false). Proved: exact output of every ended thread in named runs and runs of all tests, and one record per message in order (c65_records)."
  },
  {
   "property": "C66",
   "status": "partial",
   "theorems": [
    "Am.c66_fresh_partial",
    "Am.c66_variable",
    "Am.c66_false",
    "Am.c66_next_partial",
    "Am.c66_each_partial"
   ],
   "note": "False as stated: variables assigned by the test persist to the next iteration of the same thread (c66_false). Proved for tests without let, and per variable that the test does not assign. Now also proved for tests with let that set their variables before reading them (c66_next_partial, c66_each_partial); missing only: tests that read a variable before setting it, for which the property is false."
  },
  {
   "property": "C67",
   "status": "partial",
   "theorems": [
    "Am.c67_whole",
    "Am.c67_partial",
    "Am.c67_interrupted",
    "Am.c67_false",
    "Am.c67_exact_partial"
   ],
   "note": "Proved for all byte sequences and cuttings that do not begin with an interrupted call; false as stated: an interruption (EINTR) before the first byte fails the exchange (c67_interrupted, c67_false) because Response::from calls read once without retrying. c67_exact_partial: exactly which deliveries do not matter."
  },
  {
   "property": "C68",
   "status": "proved",
   "theorems": [
    "Am.c68_complete",
    "Am.c68_prefix",
    "Am.c68_succeeds",
    "Am.c68_error_text"
   ],
   "note": "std's BufWriter is modelled call by call with any capacity, including the flush on drop after an error. The text of a failed write: c68_error_text."
  },
  {
   "property": "C69",
   "status": "proved",
   "theorems": [
    "Am.c69_cause",
    "Am.c69_iff",
    "Am.c69_peer",
    "Am.c69_decided",
    "Am.c69_refines",
    "Am.c69_sent"
   ],
   "note": "Through a model of Stream::connect and Client::send on single calls, shown to refine the exchange-level model."
  },
  {
   "property": "C70",
   "status": "partial",
   "theorems": [
    "Am.c70_partial",
    "Am.c70_exact_partial",
    "Am.c70_never",
    "Am.c70_false"
   ],
   "note": "Endings with an error are reported (c70_partial); exactly which endings are reported (c70_exact_partial); false as stated: a connection closed early (and, over TLS, one that breaks off) is never noticed (c70_never, c70_false)."
  },
  {
   "property": "C71",
   "status": "proved",
   "theorems": [
    "Am.c71_starts",
    "Am.c71_rejected",
    "Am.c71_named",
    "Am.c71_accepted"
   ],
   "note": "Both directions, for every text of the published grammar; texts the parser rejects in c71_rejected; connection to the runs of C49 to C53 in c71_named. Record files are assumed to be creatable. c71_accepted covers the whole accepted language."
  },
  {
   "property": "C72",
   "status": "proved",
   "theorems": [
    "Am.c72_name",
    "Am.c72_render",
    "Am.c72_format",
    "Am.c72_url",
    "Am.c72_part",
    "Am.c72_cut"
   ],
   "note": "Byte-level versions of these functions (Model/Bytes.lean) with std's character-boundary panics are proved to equal the character-level model on all texts. c72_cut: what cutting at any pair of byte positions does."
  },
  {
   "property": "C73",
   "status": "partial",
   "theorems": [
    "Am.c73_understood_partial",
    "Am.c73_exact",
    "Am.c73_fragment",
    "Am.c73_false"
   ],
   "note": "False as stated: IPv6 hosts, user information, a query directly after the authority, fragments and :// in the target are misread (c73_false, c73_fragment). c73_exact gives the exact condition for addresses without fragment."
  },
  {
   "property": "C74",
   "status": "partial",
   "theorems": [
    "Am.c74_parts_partial",
    "Am.c74_total",
    "Am.c74_never",
    "Am.c74_false",
    "Am.c74_own_boundary"
   ],
   "note": "The parts are those written (c74_parts_partial, c74_total), but no multipart request ever names its boundary (c74_never), so the property is false (c74_false); a message that names one itself is not encoded (c74_own_boundary). A file that cannot be read silently gives an empty body (c74_parts_partial)."
  },
  {
   "property": "C75",
   "status": "partial",
   "theorems": [
    "Am.c75_false_source",
    "Am.c75_false_body",
    "Am.c75_false_run",
    "Am.c75_same_partial",
    "Am.c75_run_partial",
    "Am.c75_room_partial",
    "Am.c75_exact_partial",
    "Am.c75_run_room_partial"
   ],
   "note": "False as stated: the two functions recurse as deep as the text is nested, so for every amount of stack some source text (c75_false_source), some response body (c75_false_body: a server can crash the client) and some flat product 1 * 1 * ... * 1, which is read with two nested calls but evaluated with one per operand (c75_false_run), crash the program. Proved for all inputs instead: with limited room the result is a crash or the same as with unlimited room (c75_same_partial, c75_run_partial); 11 calls plus 11 per opening bracket, prefix operator and let suffice for every text (c75_room_partial); a text of expressions needs exactly its nesting depth (c75_exact_partial); a block runs undisturbed if there is room for its height, the asserts and the bodies (c75_run_room_partial)."
  },
  {
   "property": "C76",
   "status": "partial",
   "theorems": [
    "Am.c76_refines",
    "Am.c76_named",
    "Am.c76_files_partial",
    "Am.c76_no_crash",
    "Am.c76_exact_partial",
    "Am.c76_false_runs",
    "Am.c76_false_kept"
   ],
   "note": "False as stated: the threads before the first one whose file cannot be created already run, and may have sent requests, when the program panics (c76_false_runs); files of an earlier run are emptied (c76_false_kept). Proved: every run that is started thread by thread is a run of the machine used for C49-C53 (c76_refines, c76_named); no crash if all files can be created (c76_no_crash); exactly the threads before the first bad one are started (c76_exact_partial); own files hold what the thread wrote and files of other names stay as they are (c76_files_partial)."
  },
  {
   "property": "C77",
   "status": "proved",
   "theorems": [
    "Am.c77_block",
    "Am.c77_wrote"
   ],
   "note": "Proved for blocks; Spec/Flow.lean defines which variables are read before they are set. c77_wrote: also the same variables are set to the same values, in every outcome."
  },
  {
   "property": "C78",
   "status": "proved",
   "theorems": [
    "Am.c78_duration",
    "Am.c78_duration_unique",
    "Am.c78_duration_inj",
    "Am.c78_report",
    "Am.c78_stats",
    "Am.c78_duration_unit"
   ],
   "note": "std's Debug for Duration is modelled from its source (durText). The order of the lines is the map's iteration order, any permutation. c78_duration_unit: the unit is the largest one not above the time."
  },
  {
   "property": "C79",
   "status": "proved",
   "theorems": [
    "Am.c79_accepts",
    "Am.c79_unique",
    "Am.c79_rejects",
    "Am.c79_disjoint"
   ],
   "note": "Grammar in Spec/Accepts.lean, stated on token lists without the parser's state: accepted iff derivable, derivations unique, rejected iff neither derivable nor endless."
  },
  {
   "property": "C80",
   "status": "partial",
   "theorems": [
    "Am.c80_exact_partial",
    "Am.c80_fails_partial",
    "Am.c80_eval_partial",
    "Am.c80_false_assert",
    "Am.c80_false_test",
    "Am.c80_false_panic",
    "Am.c80_false_source",
    "Am.c80_false_name"
   ],
   "note": "Proved: whatever the scheduler does, am test ends with 0 or 101, with 101 exactly for the listed failures of the main thread (and each of them does lead to 101), and never gets to its threads exactly for endless sources or looping expressions; am eval: 101 exactly for accepted texts that crash. The full property is false: failing asserts, failing or crashing tests, rejected sources and unknown tests all end with status 0 (witnesses)."
  },
  {
   "property": "C81",
   "status": "proved",
   "theorems": [
    "Am.c81_agree",
    "Am.c81_files"
   ],
   "note": "For runs of a named test, as stated (for runs of all tests nothing is counted, C51)."
  },
  {
   "property": "C82",
   "status": "partial",
   "theorems": [
    "Am.c82_joined",
    "Am.c82_pieces_partial",
    "Am.c82_session",
    "Am.c82_directory",
    "Am.c82_false_minus",
    "Am.c82_false_order",
    "Am.c82_false_error"
   ],
   "note": "Proved for pieces that are programs of their own, do not begin with one of ! - ( [ , call no request defined in a later piece, and of which only the last evaluated one may fail (then the pieces after it only add their requests). False otherwise: c82_false_minus (the lines 1 and -1 become 1 - 1), c82_false_order (a call before the definition works only in one text), c82_false_error (the REPL goes on after an error)."
  },
  {
   "property": "C83",
   "status": "proved",
   "theorems": [
    "Am.c83_sent",
    "Am.c83_call",
    "Am.c83_hello"
   ],
   "note": "c83_sent is the exchange on the connection, c83_call the call in the script, c83_hello a concrete script. The call fails to return only if an assert panics (C14). Excluded by hypothesis: response bodies on which the source parser loops (C06, to_map runs it on every body)."
  },
  {
   "property": "C84",
   "status": "partial",
   "theorems": [
    "Am.c84_message",
    "Am.c84_message_unique",
    "Am.c84_unique",
    "Am.c84_first_partial",
    "Am.c84_named_partial",
    "Am.c84_later"
   ],
   "note": "c84_message: the rejected texts and their messages are exactly those of the relation Wrong (Spec/Faults.lean), which says for every rule of the grammar what does not fit. c84_first_partial: every rejected text has a first token that does not fit (before it a program begins, with it none does; c84_unique: there is only one) and the message is about that token, unless it is an opening parenthesis after an operand that cannot be called. Without the exception the claim is false (c84_later): in 1(2 3) no program begins with 1( but the message is about the 3."
  },
  {
   "property": "C85",
   "status": "partial",
   "theorems": [
    "Am.c85_written",
    "Am.c85_shown",
    "Am.c85_reads",
    "Am.c85_inside",
    "Am.c85_display_partial",
    "Am.c85_texts",
    "Am.c85_false",
    "Am.c85_confused",
    "Am.c85_floats",
    "Am.c85_f64"
   ],
   "note": "The rules are proved for every value (c85_written, c85_shown) and inside arrays and maps the text tells the value (c85_inside, c85_reads), given that {:?} of a character outside ASCII is the character or its code, a HashMap gives every entry once and the texts of floats are what they are in Rust. For a value by itself the claim is false: the integer 1 and the text 1 are printed alike (c85_false). c85_display_partial: equal unless one is a text or one is an integer and the other a float. For f64 the assumption on floats is proved (c85_floats)."
  },
  {
   "property": "C86",
   "status": "proved",
   "theorems": [
    "Am.c86_block",
    "Am.c86_text",
    "Am.c86_session",
    "Am.c86_duration",
    "Am.c86_started",
    "Am.c86_run",
    "Am.c86_differs"
   ],
   "note": "c86_block for expressions in every state, c86_text and c86_session for am eval and sessions, c86_started for am test up to the start of its threads, c86_run for the threads under every schedule in which no thread of the debug build crashes, c86_duration for --duration; c86_differs shows a script on which the builds differ because the debug build crashes."
  },
  {
   "property": "C87",
   "status": "proved",
   "theorems": [
    "Am.c87_block",
    "Am.c87_session",
    "Am.c87_run",
    "Am.c87_flag"
   ],
   "note": "c87_block for expressions in states that agree up to times, c87_session for sessions, c87_run for the threads of am test under the same schedule (workers, record files, channel, output and statistics agree up to times), c87_flag for verdicts. Assumes monotone readings of the monotonic clock (Monotone, as in C45); a clock that goes back crashes the program."
  },
  {
   "property": "C88",
   "status": "proved",
   "theorems": [
    "Am.c88_run",
    "Am.c88_started",
    "Am.c88_before"
   ],
   "note": "Any run can be replayed with any other --record and --stat: same threads, same output of the threads; also from the command line on."
  },
  {
   "property": "C89",
   "status": "partial",
   "theorems": [
    "Am.c89_block_partial",
    "Am.c89_text_partial",
    "Am.c89_session_partial",
    "Am.c89_limit_partial",
    "Am.c89_file_partial",
    "Am.c89_working",
    "Am.c89_false",
    "Am.c89_step_partial"
   ],
   "note": "False: a thread that cannot print its records panics before writing them, so an exchange that was made is missing from the record file (c89_false). Proved: evaluation, am eval and sessions crash exactly if they print what cannot be written and otherwise do the same; the record file of every thread always consists of the complete blocks of its first iterations, whatever happens to the output; a working output gives the run of the other properties. c89_step_partial: one step of a run of tests with a failing output, for threads and statistics."
  },
  {
   "property": "C90",
   "status": "proved",
   "theorems": [
    "Am.c90_tables",
    "Am.c90_text",
    "Am.c90_session",
    "Am.c90_start",
    "Am.c90_begin",
    "Am.c90_run",
    "Am.c90_same_name"
   ],
   "note": "Tables, am eval, the rest of a session, what am test starts, and its runs step by step; all-tests mode assumes the same iteration order of the map of tests. c90_same_name shows that definitions of the same name may not change places."
  },
  {
   "property": "C91",
   "status": "partial",
   "theorems": [
    "Am.c91_closed_partial",
    "Am.c91_never",
    "Am.c91_exact",
    "Am.c91_early",
    "Am.c91_undecided",
    "Am.c91_complete",
    "Am.c91_asks",
    "Am.c91_asks_cases",
    "Am.c91_send",
    "Am.c91_false"
   ],
   "note": "False: the body is read to the end of the connection whatever the head says, no read timeout is set and the request does not ask for Connection: close unless its message does. While the connection stays open no response is ever delivered (c91_never, c91_complete, witness c91_false); c91_exact says exactly when the program waits; c91_closed_partial: servers that close the connection."
  },
  {
   "property": "C92",
   "status": "partial",
   "theorems": [
    "Am.c92_ends_partial",
    "Am.c92_others",
    "Am.c92_block",
    "Am.c92_waiting",
    "Am.c92_answered",
    "Am.c92_false"
   ],
   "note": "The part about the other threads is proved (c92_others), and exactly which evaluations wait (c92_block). The part about the end of the run is false: main joins every thread, so one waiting thread keeps the program from ending after interruption or timeout and the statistics from being printed (c92_waiting, witness c92_false); c92_ends_partial: states in which no thread waits; c92_answered: every run that ends is one in which every request was answered."
  },
  {
   "property": "C93",
   "status": "partial",
   "theorems": [
    "Am.c93_expr",
    "Am.c93_known",
    "Am.c93_block_partial",
    "Am.c93_text_partial",
    "Am.c93_fresh_partial",
    "Am.c93_start_partial",
    "Am.c93_enclosed",
    "Am.c93_false"
   ],
   "note": "The property as stated is false (c93_false): an assert that stands in parentheses as a whole is passed over (evaluator.rs:189-214 looks only at Expr::Binary), so [(status == 500)] is never checked; c93_enclosed says it for every such assert. Everything else holds: parentheses inside expressions change nothing (c93_expr, for all expressions the parser can return, c93_known), and programs that differ in no parentheses around a whole assert do the same in am eval and am test (c93_block_partial, c93_text_partial, c93_fresh_partial, c93_start_partial)."
  },
  {
   "property": "C94",
   "status": "partial",
   "theorems": [
    "Am.c94_stands",
    "Am.c94_add",
    "Am.c94_sub",
    "Am.c94_mul",
    "Am.c94_div",
    "Am.c94_rem",
    "Am.c94_neg",
    "Am.c94_held",
    "Am.c94_nearest_partial",
    "Am.c94_false"
   ],
   "note": "For every operand that is a float or an integer the result is the correctly rounded exact result on the floats that stand for the operands (an integer stands as the nearest float), as IEEE 754 has it for every special case; each of these holds as an equivalence. So the claim holds whenever the integer is one a float can hold, among others up to 2^53. False beyond: 9007199254740993 + 1.0 is rounded twice."
  },
  {
   "property": "C95",
   "status": "proved",
   "theorems": [
    "Am.c95_text",
    "Am.c95_one_float",
    "Am.c95_literal",
    "Am.c95_display_reads",
    "Am.c95_debug_reads",
    "Am.c95_display",
    "Am.c95_debug",
    "Am.c95_names",
    "Am.c95_prints"
   ],
   "note": "f64 is modelled concretely (Model/Float64.lean). Literals, all texts that str::parse accepts, Display and Debug, both read back. A float prints as a literal that denotes it exactly if it is finite, without minus sign and not whole. The assumptions on floats of C10, C26 and C85 follow for f64."
  },
  {
   "property": "C96",
   "status": "partial",
   "theorems": [
    "Am.c96_order_partial",
    "Am.c96_sound",
    "Am.c96_false",
    "Am.c96_le_trans_partial",
    "Am.c96_lt_trans",
    "Am.c96_not_transitive"
   ],
   "note": "Holds between integers, between floats, and between an integer that a float can hold and a float. In general < and > are never wrong and <= and >= never miss, and < is transitive; <= is transitive exactly unless two integers are compared through a float between them (Blurred). False: 9007199254740993 <= 9007199254740992.0 <= 9007199254740992."
  },
  {
   "property": "C97",
   "status": "partial",
   "theorems": [
    "Am.c97_text",
    "Am.c97_denotes_partial",
    "Am.c97_tells_partial",
    "Am.c97_false",
    "Am.c97_exact_partial",
    "Am.c97_tells_exact_partial"
   ],
   "note": "For every expression in which floats print as float literals, no let is an operand and no field of a number literal is taken (Printable, as in C10). False in general: 1 .x is shown as 1.x, which is a float. Exactly (c97_exact_partial): with legible floats the Debug text denotes the parenthesised tree if and only if that tree prints back (PrintsBack of C10); this includes trees whose Display text does not denote them, such as -let x = 1; + 2."
  },
  {
   "property": "C98",
   "status": "proved",
   "theorems": [
    "Am.c98_block",
    "Am.c98_value",
    "Am.c98_text",
    "Am.c98_start",
    "Am.c98_message",
    "Am.c98_items",
    "Am.c98_clash"
   ],
   "note": "A script and its renaming run side by side (c98_block), from source text (c98_text) and in am test (c98_start); every message and every list of items has a renaming (c98_message, c98_items). Names inside asserts stay: they name parts of the response. c98_clash: without injectivity it is false."
  },
  {
   "property": "C99",
   "status": "proved",
   "theorems": [
    "Am.c99_addressed",
    "Am.c99_peer",
    "Am.c99_elsewhere",
    "Am.c99_fixed",
    "Am.c99_redirect"
   ],
   "note": "The address of a message is read from its first line (c99_addressed, an equivalence for every message); send is connected to an address of that host and port or sends nothing (c99_peer); networks that agree there give the same result (c99_elsewhere); a template with a fixed address up to the slash keeps it in every context (c99_fixed), and c99_redirect shows the slash is needed."
  }
 ]
}