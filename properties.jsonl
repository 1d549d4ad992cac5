{"id": "C01", "title": "Lexing is total and ends in exactly one end marker", "statement": "Splitting any source text into tokens always finishes; the token list is non-empty, its last token is the end-of-file token with empty text, and no other token is an end-of-file token.", "quantifier": "every Unicode text", "why_tests_cant": "the set of texts is infinite; tests fix one text", "anchors": ["lib/src/lexer.rs: segment", "lib/src/token.rs: Kind, Token"]}
{"id": "C02", "title": "Lexing loses nothing but whitespace", "statement": "The source text is exactly the concatenation, in order, of the source spelling of each token (text of the token, wrapped in double quotes or back-quotes for strings and templates) interleaved with runs of Unicode whitespace; only the very last string or template may lack its closing quote. No character outside whitespace and quotes is dropped, invented or reordered.", "quantifier": "every Unicode text", "why_tests_cant": "must hold for all texts, including unterminated strings and illegal characters", "anchors": ["lib/src/lexer.rs: segment"]}
{"id": "C03", "title": "Writing tokens back with whitespace between them re-lexes to the same tokens", "statement": "For every list of tokens that the lexer can produce, spelling them out separated by any non-empty runs of whitespace and lexing again gives the same list. Hence layout (amount and kind of whitespace between tokens) never changes the meaning of a program.", "quantifier": "every token list produced by the lexer, every choice of separating whitespace", "why_tests_cant": "ranges over all token sequences and all layouts", "anchors": ["lib/src/lexer.rs: segment"]}
{"id": "C04", "title": "Keywords and identifiers are separated exactly", "statement": "A word token has a keyword kind if and only if its text is exactly that keyword; every identifier token is a non-empty ASCII word starting with a letter or underscore that is not a keyword; integer tokens are non-empty ASCII digit strings; float tokens are digit/dot strings that start with a digit and contain a dot; a word or number token is maximal: the character after it in the source could not extend it.", "quantifier": "every Unicode text and every token in its token list", "why_tests_cant": "ranges over all texts and all positions", "anchors": ["lib/src/lexer.rs: segment"]}
{"id": "C05", "title": "Source files are lexed independently of each other", "statement": "The test command concatenates all .fan files; the tokens of the concatenation should be the tokens of the first file followed by the tokens of the second.", "quantifier": "every pair of file contents", "why_tests_cant": "depends on what the two files end and begin with", "anchors": ["cmd/src/command.rs: read", "lib/src/lexer.rs: segment"]}
{"id": "C06", "title": "Parsing terminates on every input", "statement": "Parser::parse returns (Ok or Err) for every source text. The same call is made on every HTTP response body, so a response body can never hang the client.", "quantifier": "every Unicode text", "why_tests_cant": "non-termination on some input cannot be excluded by sampling", "anchors": ["lib/src/parser.rs: Parser::parse, Parser::parse_expr", "lib/src/http/response.rs: Response::to_map"]}
{"id": "C07", "title": "The parser never reads outside its token list", "statement": "For every source text and at every point of the parse, the current-token index is inside the token list, so parsing never panics with an index error.", "quantifier": "every source text, every point of the run", "why_tests_cant": "ranges over all texts and run points", "anchors": ["lib/src/parser.rs: Parser::current_token, Parser::next_token"]}
{"id": "C08", "title": "Operator precedence and left associativity", "statement": "In every expression the parser returns, for every binary node with operator o: an unparenthesised binary right operand has an operator binding strictly tighter than o, and an unparenthesised binary left operand has one binding at least as tight as o; unary - and ! bind tighter than every binary operator and looser than call, index and field access. So the tree is the unique one dictated by the published precedence table.", "quantifier": "every accepted source text, every node of the result", "why_tests_cant": "infinitely many operator combinations and nestings", "anchors": ["lib/src/parser.rs: Parser::parse_expr", "lib/src/token.rs: Token::precedence"]}
{"id": "C09", "title": "The parser neither drops nor invents program tokens", "statement": "If a source text is accepted, then reading the returned expressions, requests and tests back in source order gives exactly the token list of the text, up to optional semicolons and optional trailing commas.", "quantifier": "every accepted source text", "why_tests_cant": "ranges over all programs", "anchors": ["lib/src/parser.rs: Parser::parse"]}
{"id": "C10", "title": "Printing an expression and parsing it again gives the same expression", "statement": "For every expression the parser can return, Display followed by lexing and parsing yields that expression again (the assert text stored in a record therefore denotes the assert that was evaluated).", "quantifier": "every expression returned by the parser", "why_tests_cant": "ranges over all expressions", "anchors": ["lib/src/syntax.rs: impl Display for Expr", "lib/src/parser.rs: Parser::parse"]}
{"id": "C11", "title": "Integer literals denote their exact decimal value or are rejected", "statement": "A digit string evaluates to exactly its decimal value if that is at most 9223372036854775807, and makes the parse fail otherwise; it is never silently wrapped or truncated.", "quantifier": "every digit string", "why_tests_cant": "values are unbounded", "anchors": ["lib/src/parser.rs: Parser::parse_integer_literal", "lib/src/lexer.rs: segment"]}
{"id": "C12", "title": "Definitions: last one wins, nothing else is lost", "statement": "After parsing, the request table (and likewise the test table) maps a name to the body of the last definition with that name in the source and contains no other names; top-level expressions keep their source order.", "quantifier": "every sequence of top-level items", "why_tests_cant": "ranges over all sequences with arbitrary repetitions", "anchors": ["lib/src/parser.rs: Parser::parse, Source"]}
{"id": "C13", "title": "Evaluation always finishes and sends a bounded number of requests", "statement": "eval_block finishes for every block and context (given that each HTTP exchange finishes and its body can be parsed), and the number of HTTP requests it sends is at most the number of call expressions written in the block.", "quantifier": "every block, context and network behaviour", "why_tests_cant": "ranges over all programs and network behaviours", "anchors": ["lib/src/evaluator.rs: eval_block, eval_expr, eval_call_expr"]}
{"id": "C14", "title": "Scripts cannot crash the interpreter", "statement": "Evaluating a script yields a value or an error message, never a panic.", "quantifier": "every script, context and build profile", "why_tests_cant": "depends on run-time operand values", "anchors": ["lib/src/evaluator.rs: eval_expr", "lib/src/value.rs: impl Add/Sub/Mul/Div/Rem/Shl/Shr"]}
{"id": "C15", "title": "64-bit integer arithmetic", "statement": "+, -, * on integers give the exact mathematical result whenever it fits in 64 bits; / and % truncate toward zero and satisfy (a/b)*b + a%b = a for b not 0; outside the range the result is the two's complement wrap-around in release builds and a panic in checked builds. Bit operators act bitwise, and ! on an integer is its bitwise complement.", "quantifier": "every pair of 64-bit integers, both build profiles", "why_tests_cant": "2^128 operand pairs", "anchors": ["lib/src/value.rs: impl Add/Sub/Mul/Div/Rem/BitXor/BitOr/BitAnd/Shl/Shr for Value", "lib/src/evaluator.rs: eval_unary_expr"]}
{"id": "C16", "title": "Short-circuit logic and truthiness", "statement": "Only false and null count as false. a || b yields a without evaluating b (no variable change, no request, no output) when a is truthy, otherwise yields b; a && b dually; if evaluates exactly one of its two blocks.", "quantifier": "every pair of operand expressions and context", "why_tests_cant": "ranges over all expressions with arbitrary effects", "anchors": ["lib/src/evaluator.rs: eval_binary_expr, eval_if_expr"]}
{"id": "C17", "title": "Variables change only by let, and let binds exactly its value", "statement": "After let x = e succeeds with value v, reading x gives v and no other variable differs from its state after evaluating e. Evaluating any expression leaves every variable that is not the target of a let inside it unchanged, whether evaluation succeeds, fails or panics.", "quantifier": "every expression, context and variable", "why_tests_cant": "ranges over all programs", "anchors": ["lib/src/evaluator.rs: eval_let_expr, eval_expr", "lib/src/context.rs: Context::set, Context::get"]}
{"id": "C18", "title": "Left-to-right evaluation that stops at the first error", "statement": "A block evaluates its expressions in order, each in the state left by the previous one; it returns the value of the last one (null if empty). At the first failing expression it returns that error, nothing after it runs, and all effects before it are kept.", "quantifier": "every block and context", "why_tests_cant": "ranges over all blocks and failure points", "anchors": ["lib/src/evaluator.rs: eval_block, eval_list, eval_map_literal"]}
{"id": "C19", "title": "The request table is immutable during evaluation", "statement": "Evaluating any block leaves the set of known requests, their messages and their asserts unchanged.", "quantifier": "every block and context", "why_tests_cant": "ranges over all programs", "anchors": ["lib/src/evaluator.rs: eval_expr", "lib/src/context.rs: Context::request"]}
{"id": "C20", "title": "One record per HTTP exchange, append-only and in order", "statement": "During evaluation the record list only grows at its end; it grows by exactly one record per HTTP request sent, in sending order, the record carries the called request's name, and this holds whether the exchange or the evaluation fails or succeeds.", "quantifier": "every block, context and network behaviour", "why_tests_cant": "ranges over all programs and network behaviours", "anchors": ["lib/src/evaluator.rs: eval_call_expr", "lib/src/context.rs: Context::push"]}
{"id": "C21", "title": "Asserts see only the response", "statement": "The asserts of a request are evaluated against the response fields alone: their recorded outcome does not depend on the caller's variables or earlier records, they send no request, and they change no variable of the caller. A request call returns the response map unless an assert itself contains a let.", "quantifier": "every request, caller context and response", "why_tests_cant": "ranges over all assert expressions and contexts", "anchors": ["lib/src/evaluator.rs: eval_call_expr"]}
{"id": "C22", "title": "Every assert is checked and recorded, and a broken assert fails", "statement": "A request call records one assert result per assert written, in order, with result = outcome of the comparison; an assert whose operand cannot be evaluated is recorded as failed and does not abort the run.", "quantifier": "every assert list and response", "why_tests_cant": "ranges over all assert expressions", "anchors": ["lib/src/evaluator.rs: eval_call_expr"]}
{"id": "C23", "title": "PASS is printed exactly when every assert holds and the exchange succeeded", "statement": "The printed summary of a record says PASS if and only if all its recorded asserts are true and the exchange did not fail.", "quantifier": "every record", "why_tests_cant": "ranges over all assert lists", "anchors": ["lib/src/context.rs: impl Display for Record"]}
{"id": "C24", "title": "Array indexing", "statement": "a[i] on an array yields item i when 0 <= i < length and null for every other integer, including all negative ones; it never fails or panics on an integer index, and the array variable is unchanged.", "quantifier": "every array and every 64-bit index", "why_tests_cant": "index cast to unsigned must be right for all 2^64 values", "anchors": ["lib/src/evaluator.rs: eval_index_expr"]}
{"id": "C25", "title": "Map literals and lookups", "statement": "A map literal holds, for each key text, the value of the last pair whose key prints as that text, and nothing else; m[k] and m.k return that value, or null if absent; m.k equals m[\"k\"]. Non-container operands give an error.", "quantifier": "every map literal and key", "why_tests_cant": "ranges over all key collisions", "anchors": ["lib/src/evaluator.rs: eval_map_literal, eval_index_expr, eval_field_expr"]}
{"id": "C26", "title": "Comparison operators are consistent", "statement": "For all values a, b: a == b implies a <= b and a >= b; a < b iff b > a; a != b iff not (a == b); at most one of a < b, a == b, a > b holds; strings are compared in code point order, integers numerically; values of unrelated kinds are neither <, <=, > nor >=.", "quantifier": "every pair of values", "why_tests_cant": "ranges over all pairs of values", "anchors": ["lib/src/value.rs: derive(PartialEq), impl PartialOrd for Value", "lib/src/evaluator.rs: eval_binary_expr"]}
{"id": "C27", "title": "Request templates: substitution is exact and single-pass", "statement": "The message sent is the request template with every placeholder {name} (optional whitespace inside the braces) replaced by the text of the variable (null when unbound) and every other character unchanged; substituted text is not scanned again.", "quantifier": "every template and variable assignment", "why_tests_cant": "ranges over all templates, including nested and adjacent braces, and values containing braces", "anchors": ["lib/src/evaluator.rs: eval_call_expr"]}
{"id": "C28", "title": "format() substitutes positionally or reports an arity error", "statement": "format(s, v1..vn) fails with an arity error exactly when the number of placeholders in s is not n, and otherwise returns s with the i-th placeholder replaced by the text of vi, everything else unchanged, substituted text not scanned again. print and println output exactly that text (plus newline) and return null.", "quantifier": "every format string and argument list", "why_tests_cant": "ranges over all strings and argument lists", "anchors": ["lib/src/native.rs: format, print, println"]}
{"id": "C29", "title": "length() and append()", "statement": "length returns the UTF-8 byte length of a string, the item count of an array and the number of distinct keys of a map, and an error on anything else or on a wrong argument count; append(a, v1..vn) returns the items of a followed by v1..vn and leaves a unchanged.", "quantifier": "every argument list", "why_tests_cant": "ranges over all values", "anchors": ["lib/src/native.rs: length, append"]}
{"id": "C30", "title": "Variable-length integer encoding round-trips", "statement": "Every 64-bit integer is encoded in 1 to 10 bytes such that a standard Avro decoder reading from the front recovers exactly that integer and leaves exactly the following bytes; distinct integers have distinct, prefix-free encodings.", "quantifier": "every 64-bit integer and every following byte sequence", "why_tests_cant": "2^64 values", "anchors": ["lib/src/writer.rs: encode_long, encode_variable"]}
{"id": "C31", "title": "Record files are readable by a conforming Avro reader", "statement": "For every sequence of writes, an Avro object-container reader using the schema stored in the file header decodes the file to exactly the written records.", "quantifier": "every sequence of record batches", "why_tests_cant": "ranges over all records; the unit test has no headers and no asserts", "anchors": ["lib/src/writer.rs: Writer::new, Writer::write, META"]}
{"id": "C32", "title": "Record files are unambiguous", "statement": "Given the field order used by the writer, the bytes of a block determine the test name, thread, iteration, and every field of every record of the batch: two different batches never produce the same bytes, and every batch can be recovered.", "quantifier": "every batch of records", "why_tests_cant": "ranges over all records", "anchors": ["lib/src/writer.rs: Writer::write"]}
{"id": "C33", "title": "Every crash point leaves whole blocks, and no write is silently cut", "statement": "After any number of Writer::write calls the file holds the header followed by one complete block per call, each ended by the sync marker, whatever the sink's behaviour.", "quantifier": "every sequence of writes and every behaviour of the underlying sink", "why_tests_cant": "sink may accept only part of the buffer at any call", "anchors": ["lib/src/writer.rs: Writer::new, Writer::write"]}
{"id": "C34", "title": "Statistics are exact and order-independent", "statement": "After adding any sequence of timings, each name's count, sum, max and min are those of the timings added under that name, avg is the floor of sum/count, names never added are absent, and reordering the additions changes nothing.", "quantifier": "every sequence of additions and every permutation of it", "why_tests_cant": "ranges over all histories", "anchors": ["lib/src/stat.rs: Stats::add, Stat::add"]}
{"id": "C35", "title": "URLs are parsed into the parts they denote", "statement": "For scheme http or https, host, optional port and path (starting with /), parsing scheme://host[:port]path yields these parts, with port defaulting to 80 / 443 and path to /; the full path and query is what gets requested; displaying a parsed URL and parsing it again gives the same URL.", "quantifier": "every scheme, host, port and path", "why_tests_cant": "ranges over all URL texts", "anchors": ["lib/src/http/url.rs: impl From<&str> for Url, impl Display for Url"]}
{"id": "C36", "title": "Methods, versions and schemes are used as written", "statement": "Every method, version and scheme keyword round-trips through its text; a request line with a method is sent with that method.", "quantifier": "every keyword and every text", "why_tests_cant": "finite table plus all other texts", "anchors": ["lib/src/http/mod.rs: http_type!", "lib/src/http/request.rs: Request::from"]}
{"id": "C37", "title": "Request messages are parsed line by line", "statement": "The first line gives method, URL and version; the following lines up to the first blank line give the headers name: value in order, trimmed, ignoring lines without a colon; no header is lost, duplicated or reordered.", "quantifier": "every message text", "why_tests_cant": "ranges over all messages", "anchors": ["lib/src/http/request.rs: Request::from"]}
{"id": "C38", "title": "The bytes sent are a well-formed HTTP/1.1 request for the parsed message", "statement": "The bytes written are the request line, one line per header and a blank line, each ended by CR LF, followed by the content; reading them back gives the same method, path, version, headers and content. No header or path contains a line feed, so one template header line can never become two header lines on the wire.", "quantifier": "every message text", "why_tests_cant": "ranges over all messages", "anchors": ["lib/src/http/request.rs: Request::write, Request::from", "lib/src/http/content.rs: Content::write"]}
{"id": "C39", "title": "A request body is sent as written", "statement": "For messages without a form content type, the bytes sent after the headers are the text of the message after the blank line.", "quantifier": "every message text", "why_tests_cant": "ranges over all bodies", "anchors": ["lib/src/http/request.rs: Request::from"]}
{"id": "C40", "title": "Form bodies decode to the pairs written", "statement": "For Content-Type application/x-www-form-urlencoded, decoding the sent body with the standard form decoder gives exactly the name/value pairs of the body lines, in order, for all Unicode names and values.", "quantifier": "every list of pairs", "why_tests_cant": "ranges over all Unicode texts", "anchors": ["lib/src/http/request.rs: Request::from"]}
{"id": "C41", "title": "Responses are parsed into the parts they consist of", "statement": "For every byte stream consisting of a status line, header lines, a blank line and a body, Response::from yields the version, the status code, the headers in order and a body equal to all remaining bytes; invalid UTF-8 gives an error, not a corrupted record; a truncated stream still gives a response or an error.", "quantifier": "every byte stream", "why_tests_cant": "ranges over all byte streams", "anchors": ["lib/src/http/response.rs: Response::from"]}
{"id": "C42", "title": "The reason phrase is preserved", "statement": "response.reason is the reason phrase of the status line.", "quantifier": "every status line", "why_tests_cant": "ranges over all phrases", "anchors": ["lib/src/http/response.rs: Response::from"]}
{"id": "C43", "title": "The response map exposes every header value in order", "statement": "In the map returned by a request call, headers[name] is the array of all values received under exactly that name, in arrival order, for every received name and no other; version, status, reason and body are the response's.", "quantifier": "every response", "why_tests_cant": "ranges over all header sequences", "anchors": ["lib/src/http/response.rs: Response::to_map"]}
{"id": "C44", "title": "A JSON body is exposed as the value it denotes", "statement": "If the response body is a JSON document, response.json is the value it denotes.", "quantifier": "every JSON document in every layout", "why_tests_cant": "ranges over all documents and whitespace layouts", "anchors": ["lib/src/http/response.rs: Response::to_map", "lib/src/syntax.rs: Expr::eval"]}
{"id": "C45", "title": "Timing phases add up", "statement": "For every successful exchange, total = resolve + connect + write + delay + read exactly, no phase is negative, and computing them never panics, for every monotone clock.", "quantifier": "every sequence of monotone clock readings", "why_tests_cant": "depends on the clock readings", "anchors": ["lib/src/http/client.rs: Client::send"]}
{"id": "C46", "title": "Failed exchanges are reported, never lost", "statement": "Client::send always returns the parsed request; if connecting, writing or reading fails the error text is non-empty and the response is the empty one; if it succeeds the error text is empty.", "quantifier": "every message and every network behaviour", "why_tests_cant": "ranges over all failure points", "anchors": ["lib/src/http/client.rs: Client::send"]}
{"id": "C47", "title": "Address rotation is a fair merge", "statement": "The list of addresses tried contains every resolved address exactly once, keeps the relative order within each family, starts with IPv6 if there is one and alternates families until one runs out.", "quantifier": "every pair of address lists", "why_tests_cant": "ranges over all lengths", "anchors": ["lib/src/http/stream.rs: rotate, Stream::connect_happy"]}
{"id": "C48", "title": "Connection racing returns a working connection whenever there is one", "statement": "For every interleaving of connection attempts, timeouts and replies: a returned stream belongs to one of the given addresses whose attempt succeeded; if at least one attempt succeeds and all attempts finish, the result is a stream; an error is returned only after every attempt failed; with no address the error is no-connection-available.", "quantifier": "every address list, every attempt outcome, every schedule of replies and timeouts", "why_tests_cant": "schedules are unbounded", "anchors": ["lib/src/http/stream.rs: Stream::connect_happy"]}
{"id": "C49", "title": "test name --number n runs the test n times", "statement": "With t threads and number n, the test body is executed exactly n times in total (absent errors and interruption), never more than n times.", "quantifier": "every n, t and schedule", "why_tests_cant": "ranges over all n, t and interleavings", "anchors": ["cmd/src/command.rs: test"]}
{"id": "C50", "title": "Per-thread record files are complete and in order under every schedule", "statement": "At every moment and under every interleaving, the file of thread i contains the header and exactly one block per completed iteration of thread i, numbered 0,1,2,..., labelled with thread i, holding that iteration's records.", "quantifier": "every interleaving of threads, interrupts and timer", "why_tests_cant": "schedules are unbounded", "anchors": ["cmd/src/command.rs: test, writer", "lib/src/writer.rs: Writer::write"]}
{"id": "C51", "title": "Statistics are complete and schedule-independent, and the run ends", "statement": "Under every interleaving the run can only end with the statistics covering every record of every completed iteration of every thread exactly once; no reachable state is deadlocked, and the statistics thread ends after the last test thread.", "quantifier": "every interleaving", "why_tests_cant": "schedules are unbounded", "anchors": ["cmd/src/command.rs: test", "lib/src/stat.rs: Stats::add"]}
{"id": "C52", "title": "Interruption and timeout stop the run promptly", "statement": "Once the stop flag is cleared, each thread finishes at most the iteration it already started and starts no new one; completed iterations are still recorded and counted.", "quantifier": "every interleaving and every moment of interruption", "why_tests_cant": "moment of interruption is arbitrary", "anchors": ["cmd/src/command.rs: test, handle_interrupt"]}
{"id": "C53", "title": "Test threads and tests are isolated", "statement": "Each thread runs on its own copy of the top-level variables and requests, with an empty record list: the results of a thread do not depend on what other threads do.", "quantifier": "every program, thread count and schedule", "why_tests_cant": "ranges over all schedules", "anchors": ["cmd/src/command.rs: test", "lib/src/context.rs: impl Clone for Context"]}
{"id": "C54", "title": "The REPL keeps state across lines and survives errors", "statement": "Variables and requests defined on earlier lines are visible on later lines; a line that does not parse changes nothing; a line that fails keeps the effects before the failure.", "quantifier": "every sequence of lines", "why_tests_cant": "ranges over all histories", "anchors": ["cmd/src/command.rs: repl, eval"]}
{"id": "C55", "title": "The REPL ends when its input ends", "statement": "repl returns after an exit line or at the end of standard input.", "quantifier": "every sequence of lines", "why_tests_cant": "non-termination cannot be observed by a test", "anchors": ["cmd/src/command.rs: repl"]}
{"id": "C56", "title": "Durations on the command line denote what they say", "statement": "<n>s, <n>m and <n>h denote n seconds, minutes and hours for every n; anything else is rejected with a message.", "quantifier": "every argument text", "why_tests_cant": "ranges over all texts; overflow only at huge values", "anchors": ["cmd/src/main.rs: parse_duration"]}
{"id": "C57", "title": "Source collection reads every .fan file once, in path order", "statement": "For a directory, the program text is the concatenation of all files below it whose extension is fan, in sorted depth-first order, each exactly once; files with other extensions are ignored.", "quantifier": "every directory tree", "why_tests_cant": "ranges over all trees", "anchors": ["cmd/src/command.rs: read, read_to_string"]}
{"id": "C58", "title": "Records of a failing test are reported", "statement": "When a test body fails with an error after sending some requests, the records of these requests are still printed and written to the record file.", "quantifier": "every test body and failure point", "why_tests_cant": "ranges over all failure points", "anchors": ["cmd/src/command.rs: test"]}
{"id": "C59", "title": "Every program of the published grammar is accepted with its meaning", "statement": "If the tokens of a source text are derived by the published grammar (with the operator precedence table, statements separated by semicolons or by a token that cannot continue the one before) from a list of items, then the parser accepts the text and returns exactly those items.", "quantifier": "every derivation of the grammar, every layout of its tokens", "why_tests_cant": "infinitely many programs", "anchors": ["lib/src/parser.rs: Parser::parse"]}
{"id": "C60", "title": "Substituted values stay inside the header they are written in", "statement": "For every request template whose placeholders stand in header values, in the request line after its first character or in the body, and for every binding of the variables, the request has exactly the written headers in order, each with its written name and its written value with the placeholders replaced.", "quantifier": "every template, every binding of variables", "why_tests_cant": "ranges over all templates and values, including values with line feeds that start new headers", "anchors": ["lib/src/evaluator.rs: eval_call_expr (render)", "lib/src/http/request.rs: Request::from"]}
{"id": "C61", "title": "A server finds the end of every request body", "statement": "A server that reads the bytes of a request by the rules of HTTP/1.1 (Content-Length, Transfer-Encoding) gets exactly the content of the request as body, with nothing left on the connection; every request carries a Host field.", "quantifier": "every request message", "why_tests_cant": "ranges over all messages; a test server that reads until the connection closes does not notice", "anchors": ["lib/src/http/request.rs: Request::write, Request::from"]}
{"id": "C62", "title": "The response body is the body of the HTTP message", "statement": "The body of a response equals the message body defined by HTTP/1.1: by its chunks, by its declared length, or by the end of the connection.", "quantifier": "every response received completely", "why_tests_cant": "ranges over all responses and framings", "anchors": ["lib/src/http/response.rs: Response::read"]}
{"id": "C63", "title": "Scripts run by the rules of the language", "statement": "Evaluating a script gives exactly the outcome, the variables, the messages sent and the printed text that the rules of the language give; every script has exactly one outcome by the rules.", "quantifier": "every script, state and network", "why_tests_cant": "ranges over all scripts and states", "anchors": ["lib/src/evaluator.rs: eval_expr, eval_block, eval_binary_expr, eval_unary_expr, eval_index_expr, eval_field_expr, eval_call_expr, eval_asserts", "lib/src/native.rs", "lib/src/value.rs"]}
{"id": "C64", "title": "A source text means what the published grammar and the rules of the language say", "statement": "For every text that the published grammar derives from a list of items, evaluating it (am eval, am run, a REPL line) adds its requests to the known ones, in order, later declarations replacing earlier ones, runs its expressions by the rules of the language and prints the result; it does nothing else.", "quantifier": "every source text of the grammar, state and network behaviour", "why_tests_cant": "ranges over all programs, layouts and replies; the meaning is fixed without reference to the implementation", "anchors": ["cmd/src/command.rs: eval", "lib/src/parser.rs: parse", "lib/src/evaluator.rs: eval_block"]}
{"id": "C65", "title": "Every exchange of a test run is reported exactly once", "statement": "Every message sent while `am test` runs, at the top level of the sources or in a test, is reported on standard output exactly once, in the order in which its thread sent it.", "quantifier": "every source text, schedule and network behaviour", "why_tests_cant": "ranges over all programs and interleavings", "anchors": ["cmd/src/command.rs: test", "lib/src/context.rs: clone"]}
{"id": "C66", "title": "Iterations of a test do not influence each other", "statement": "What one iteration of a test prints and records depends only on the test, the top-level variables and requests, and the network behaviour during that iteration.", "quantifier": "every test, number of iterations and network behaviour", "why_tests_cant": "ranges over all tests and histories", "anchors": ["cmd/src/command.rs: test", "lib/src/evaluator.rs: eval_block"]}
{"id": "C67", "title": "How the network cuts a response into pieces does not matter", "statement": "The response read through the buffered reader depends only on the bytes received and on how the connection ended, not on the sizes of the pieces in which single read calls delivered them nor on interrupted calls.", "quantifier": "every byte sequence, every way to cut it into read calls, every ending", "why_tests_cant": "the test double delivers everything in one piece", "anchors": ["lib/src/http/response.rs: Response::from", "lib/src/http/client.rs: Client::send"]}
{"id": "C68", "title": "A request reaches the connection whole or an error is reported", "statement": "For every request, size of the write buffer and behaviour of the single write calls (short, interrupted, failing): if Request::write succeeds, exactly the bytes of the request are on the connection; if it fails, a beginning of them is; it succeeds if no call fails.", "quantifier": "every request, buffer size and sequence of results of write calls", "why_tests_cant": "ranges over all failure points and short writes", "anchors": ["lib/src/http/request.rs: Request::write", "lib/src/http/content.rs: Content::write"]}
{"id": "C69", "title": "Connection errors name their cause, and success means a complete exchange", "statement": "When Client::send cannot connect, the error text is the one of the cause that holds (invalid name, TLS setup, unresolved host, no address, all addresses down, timeout not settable) and nothing is sent; a connection leads to a resolved address that accepts it; an empty error text means the whole request was sent over it and the response returned is the one received.", "quantifier": "every message, resolution result, reachability, schedule of the connection race and sequence of call results", "why_tests_cant": "ranges over all schedules and failures", "anchors": ["lib/src/http/client.rs: Client::send", "lib/src/http/stream.rs: Stream::connect"]}
{"id": "C70", "title": "A response cut short is reported", "statement": "If the connection ends before the body that the head of the response announces (RFC 9112, section 6.3) is complete, the exchange is reported as failed.", "quantifier": "every response, cut and kind of connection", "why_tests_cant": "ranges over all cuts", "anchors": ["lib/src/http/response.rs: Response::from", "lib/src/http/stream.rs: Read for Stream"]}
{"id": "C71", "title": "What am test starts", "statement": "For sources in the published grammar, am test first runs the top-level expressions; if they fail it prints the error and starts nothing; otherwise, given a name, it starts --threads threads for the last test of that name with number/threads iterations each (the --number given, or 2^32-1 when a duration is given), prints 'Test not found' for a name that is not declared, panics when --threads is zero; without a name it starts exactly one thread per declared test name, in some order.", "quantifier": "every source text, arguments, network and map iteration order", "why_tests_cant": "ranges over all source texts and iteration orders", "anchors": ["cmd/src/command.rs: test", "cmd/src/main.rs: main"]}
{"id": "C72", "title": "Text is never cut inside a character", "statement": "Every slice and every replace_range by byte position - the name cut out of a placeholder, the replacement of placeholders in a request message and in format, host, port and path cut out of an address, the '@' taken off a file part - falls on a character boundary for every Unicode text, so none of them panics, and the result is the same text as cutting by characters.", "quantifier": "every Unicode text, context and argument list", "why_tests_cant": "ranges over all Unicode texts; the tests use ASCII only, where bytes and characters coincide", "anchors": ["lib/src/evaluator.rs: eval_call", "lib/src/native.rs: format", "lib/src/http/url.rs: from", "lib/src/http/request.rs: from"]}
{"id": "C73", "title": "Addresses are read by RFC 3986", "statement": "For every http or https address written by the rules of RFC 3986 (user information, host name or IPv6 address in brackets, port, path, query, fragment), the program connects to the host and port it denotes and requests its path and query, without the fragment.", "quantifier": "every address of the grammar", "why_tests_cant": "ranges over all addresses; the tests use a handful of plain ones", "anchors": ["lib/src/http/url.rs: from", "lib/src/http/request.rs: write"]}
{"id": "C74", "title": "Multipart requests can be read by the server", "statement": "For a message with content type multipart/form-data, the parts sent are those written in the body lines, and the Content-Type field sent names the boundary that separates them.", "quantifier": "every message", "why_tests_cant": "ranges over all messages; no test sends a multipart request", "anchors": ["lib/src/http/request.rs: from", "lib/src/http/content.rs: write"]}
{"id": "C75", "title": "Nesting in a text cannot exhaust the stack", "statement": "There is a number of nested calls of parse_expr and eval_expr for which the stack must have room that is enough to read and run every source text and to read the body of every response.", "quantifier": "every source text, response body, program and amount of stack", "why_tests_cant": "ranges over all nesting depths; a test shows only one text, and a stack overflow kills the test process itself", "anchors": ["lib/src/parser.rs: parse_expr", "lib/src/evaluator.rs: eval_expr", "lib/src/http/response.rs: to_map"]}
{"id": "C76", "title": "Recording starts whole or not at all and keeps other files", "statement": "With --record, am test runs a test only if the record files of all its threads can be created (otherwise it ends with an error before anything is sent), each thread writes to its own file, and no file that was in the directory before is changed. Starting the threads one after the other, while earlier ones already run, gives the same runs as starting them together.", "quantifier": "every number of threads, directory content, set of files that can be created, and schedule", "why_tests_cant": "depends on which file cannot be created and on what the threads already started have done by then", "anchors": ["cmd/src/command.rs: test", "cmd/src/command.rs: writer"]}
{"id": "C77", "title": "A script depends only on the variables it reads", "statement": "If every variable a piece of script reads — including those named by placeholders in the templates of the requests it calls — is one of a given set or has certainly been set by the piece itself before, then in any two contexts with the same requests that agree on that set it does the same: the same value or error, messages, printed text and records; and afterwards the contexts still agree on that set and on the variables the piece certainly set.", "quantifier": "every script, request table, set of variables, pair of contexts and network behaviour", "why_tests_cant": "ranges over all scripts and all pairs of contexts", "anchors": ["lib/src/evaluator.rs: eval_expr, eval_call_expr, eval_ident_expr, eval_let_expr", "lib/src/context.rs: Context::get, Context::set"]}
{"id": "C78", "title": "Printed times and statistics say exactly what was measured", "statement": "The time printed at the end of a record's report denotes exactly the total time of the exchange in nanoseconds (a decimal number, possibly with digits after a point, of s, ms, µs or ns), so different times are printed differently. The statistics printed after any sequence of timings have exactly one line per name with at least one timing, and each line shows in decimal the number of its timings, their sum, their mean rounded down, the largest and the smallest.", "quantifier": "every duration, every record and every sequence of timings", "why_tests_cant": "ranges over all durations and histories", "anchors": ["lib/src/context.rs: Display for Record", "lib/src/stat.rs: Stats::add, Display for Stat, Display for Stats"]}
{"id": "C79", "title": "Exactly which texts are programs", "statement": "A source text is accepted if and only if its tokens are a program of the exact grammar (operands, what the operators after them build, where an expression ends), and then the result consists of the items of that program; a token list is a program in at most one way; every other text is either rejected with a message or one of the endless texts characterised exactly under C06.", "quantifier": "every Unicode text", "why_tests_cant": "infinitely many texts on both sides of the line", "anchors": ["lib/src/parser.rs: Parser::parse, Parser::parse_expr"]}
{"id": "C80", "title": "The exit status tells whether the run succeeded", "statement": "The process ends with status 0 exactly if everything asked for succeeded: the sources were read and accepted, the test asked for exists, no expression or test failed or crashed, and no assert failed; otherwise it ends with another status. In detail for the part that concerns the main thread: `am test` ends with status 101 exactly if a source file is unreadable, an expression outside the tests crashes, an existing named test is to run in no thread, or a record file cannot be created.", "quantifier": "every directory of sources, every command line, every network behaviour and every schedule of the threads", "why_tests_cant": "ranges over all programs, directories and schedules", "anchors": ["cmd/src/main.rs: main", "cmd/src/command.rs: test, eval"]}
{"id": "C81", "title": "The reports of a run agree", "statement": "When a run of a named test with --record and --stat has ended, there is for each thread one history of iterations of the test such that the thread's record file is the file of that history (so that a reader finds exactly its records, labelled with test, thread and iteration), the thread has printed exactly one report per record of the history in the same order (followed only by what a failing last evaluation printed), and the printed statistics have exactly one line per request name occurring in any history, whose count, sum, mean, maximum and minimum are those of the times of all its records.", "quantifier": "every test, number of threads and iterations, network behaviour and schedule", "why_tests_cant": "depends on all interleavings of the threads", "anchors": ["cmd/src/command.rs: test", "lib/src/writer.rs: Writer::write", "lib/src/stat.rs: Stats"]}
{"id": "C82", "title": "A script given piece by piece does what the whole script does", "statement": "If every one of several texts is a program of its own, the texts on consecutive lines are the program with the items of all of them; evaluating that program leaves the same variables, requests and records, sends the same messages and prints the same as giving the texts one after the other, as in the REPL, apart from the values the REPL shows after every line; and the text `am test` reads from a directory of such source files is the program with the items of all files in the order of their paths.", "quantifier": "every list of texts, every state, every network behaviour", "why_tests_cant": "ranges over all programs and all ways to cut them into pieces", "anchors": ["cmd/src/command.rs: eval, repl, read_to_string", "lib/src/parser.rs: Parser::parse"]}
{"id": "C83", "title": "From the script to the server and back", "statement": "If the rendered template of a request is a plain request text (request line with a full URL whose path has no `://`, headers with names and values on one line each, an optional one-line body, no form content type), then on a network where nothing goes wrong the server gets exactly the method, target, version, header fields and body as written, and the call returns a map showing exactly the version, status, header fields and body the server answered, and adds one record with the request, the response and the outcomes of the asserts; in whatever pieces the connection takes and delivers the bytes.", "quantifier": "every plain request, every server (a function from the request read from the wire to a well-formed response whose body the source parser can read to its end), every state, every list of asserts without let, every sequence of partial reads and writes", "why_tests_cant": "ranges over all requests, all servers and all ways the bytes are cut", "anchors": ["lib/src/evaluator.rs: eval_call_expr", "lib/src/http/client.rs: Client::send", "lib/src/http/request.rs", "lib/src/http/response.rs"]}
{"id": "C84", "title": "A syntax error names the first token that does not fit", "statement": "If a script is rejected, the message is about the first token that does not fit: what stands before that token is the beginning of a program, and no program begins with it and that token. The message says what was expected and what was found, according to the rule of the grammar at that place.", "quantifier": "every script text", "why_tests_cant": "ranges over all texts, and that no program begins like this is a statement about all continuations", "anchors": ["lib/src/parser.rs: Parser::expect", "lib/src/parser.rs: parse_expr", "lib/src/parser.rs: parse_call_expr"]}
{"id": "C85", "title": "A printed value can be read back", "statement": "The text printed for a value follows fixed rules: the name of the kind and the content inside arrays and maps, texts between quotes with escapes, decimal digits for integers. Two values with the same text are equal.", "quantifier": "every pair of values, of any depth, any map order", "why_tests_cant": "ranges over all values and all texts with their escapes; that no two different values share a text is a statement about all pairs", "anchors": ["lib/src/value.rs: Display for Value", "lib/src/value.rs: derive(Debug) for Value"]}
{"id": "C86", "title": "A release build does what a debug build does, unless the debug build crashes", "statement": "Overflow checks are the only difference between the build profiles. If the debug build does not crash on a script, a session or a run of tests, the release build gives the same result, sends the same messages, prints the same text and leaves the same state. If the debug build crashes, everything it has sent and printed until then is sent and printed by the release build as well.", "quantifier": "every script, state, network, session, command line and schedule", "why_tests_cant": "compares two builds on all inputs; a test runs one build on one input", "anchors": ["lib/src/value.rs: Add for Value", "lib/src/value.rs: Shl for Value", "lib/src/evaluator.rs: eval_expr", "cmd/src/command.rs: eval", "cmd/src/command.rs: test", "cmd/src/main.rs: parse_duration"]}
{"id": "C87", "title": "Clocks change nothing but the times in records", "statement": "If the network answers the same, only at other times, then scripts, sessions and test runs give the same results: the same values and messages, the same variables, the same requests sent, the same asserts with the same verdicts, the same records up to their times, the same counts in the statistics. The clock never decides what a script does.", "quantifier": "every script, session and schedule, every pair of networks that differ only in the readings of monotone clocks", "why_tests_cant": "a statement about pairs of executions with arbitrary clocks", "anchors": ["lib/src/http/time.rs: Time", "lib/src/http/client.rs: send", "lib/src/evaluator.rs: eval_call_expr", "cmd/src/command.rs: test", "lib/src/stat.rs: Stats::add"]}
{"id": "C88", "title": "Recording and statistics only watch a run", "statement": "The options --record and --stat change nothing about what the tests do: in every run, the threads make the same requests, print the same text, keep the same variables and stop at the same time as they do with the same schedule and any other choice of these options. They add record files and the statistics, nothing else.", "quantifier": "every source text, test, number of threads, schedule, network and choice of the two options", "why_tests_cant": "compares pairs of executions over all schedules", "anchors": ["cmd/src/command.rs: test", "lib/src/writer.rs: Writer", "lib/src/stat.rs: Stats::add"]}
{"id": "C89", "title": "When nobody reads the output any more, no record is lost", "statement": "If the standard output stops working, for example because its reader has gone, then every exchange that was made is still written to the record file. A script without tests crashes exactly when it prints something that can no longer be written, and until then it does what it does with a working output.", "quantifier": "every script, session, run of tests and schedule, every point at which the output stops working", "why_tests_cant": "the output can fail at any write of any thread; a test closes it at one place", "anchors": ["lib/src/native.rs: println", "lib/src/native.rs: print", "cmd/src/command.rs: eval", "cmd/src/command.rs: test", "lib/src/writer.rs: Writer"]}
{"id": "C90", "title": "It does not matter where a request or a test is defined", "statement": "Moving definitions of requests and tests to other places in a source text, also behind their uses, changes nothing: the evaluation has the same outcome, sends the same messages, prints the same and leaves the same variables and records, the rest of a session goes on the same, and am test starts the same threads that run, print and record the same. Only the order of the expressions and the order of definitions of the same name matter.", "quantifier": "every two accepted source texts whose items are rearranged in this way, every state, network, session, command line and schedule", "why_tests_cant": "compares executions of arbitrary pairs of programs under all schedules", "anchors": ["lib/src/parser.rs: parse", "lib/src/context.rs: Context::extend", "lib/src/evaluator.rs: eval_block", "cmd/src/command.rs: test", "cmd/src/command.rs: eval"]}
{"id": "C91", "title": "An exchange ends when the response is complete", "statement": "When a response that is complete by RFC 9112, section 6.3 (its declared length, its chunks, or a status without a body) has arrived, Client::send returns, also when the server keeps the connection open, as it may after any request that does not ask it to close the connection.", "quantifier": "every response and every way in which its bytes arrive", "why_tests_cant": "the test double ends after its last byte, and the tests that use the network ask for Connection: close", "anchors": ["lib/src/http/response.rs: Response::from", "lib/src/http/client.rs: Client::send"]}
{"id": "C92", "title": "A request that is never answered holds up only its own thread", "statement": "If some exchanges never end, the threads that do not wait for them, their record files and the statistics collected are as in a run in which every request is answered, and a run that is interrupted or whose time is over still comes to its end.", "quantifier": "every program, every schedule, every choice of the exchanges that never end", "why_tests_cant": "needs a server that never answers and all interleavings", "anchors": ["cmd/src/command.rs: test", "lib/src/http/client.rs: Client::default", "lib/src/http/stream.rs: connect_tcp"]}
{"id": "C93", "title": "Redundant parentheses change nothing", "statement": "Two source texts whose syntax trees differ only in parentheses have the same outcome, send the same messages, print the same text, leave the same variables and record the same exchanges with the same asserts and results; only the text that shows how an assert was written may differ.", "quantifier": "every pair of programs that differ only in parentheses, every network, every state", "why_tests_cant": "all programs and all places for parentheses; a test would have to guess that an assert in parentheses is passed over", "anchors": ["lib/src/parser.rs: Parser::parse_paren_expr", "lib/src/evaluator.rs: eval_expr, eval_call_expr", "lib/src/syntax.rs: Expr::Paren"]}
{"id": "C94", "title": "Arithmetic with floats is exact up to one rounding", "statement": "If one operand of +, -, *, / or % is a float and the other a float or an integer, the result is the float nearest to the exact result of the operation on the values of the two operands, ties to even (with the IEEE 754 rules for infinities, NaN, zero and the sign of zero).", "quantifier": "every pair of numbers of which one is a float", "why_tests_cant": "2^128 pairs of floats; the rounding cases are rare", "anchors": ["lib/src/value.rs: Add, Sub, Mul, Div, Rem for Value", "lib/src/evaluator.rs: eval_binary_expr"]}
{"id": "C95", "title": "Floats in texts denote and show their values", "statement": "A float literal is accepted exactly if it is a decimal fraction with one point, and denotes the float nearest to it. The text shown for a float is the shortest decimal that denotes it, the nearest of these, and every text shown for a float is read back as the same float.", "quantifier": "every float, every literal", "why_tests_cant": "2^64 floats and unboundedly many literals", "anchors": ["lib/src/parser.rs: Parser::parse_float_literal", "lib/src/value.rs: Display for Value, Debug for Value", "lib/src/syntax.rs: Display for Expr"]}
{"id": "C96", "title": "Comparing numbers compares their values", "statement": "For two finite numbers, integers or floats, ==, !=, <, <=, > and >= answer as the exact values are ordered; in particular < and <= are transitive.", "quantifier": "every pair and triple of values", "why_tests_cant": "the integers above 2^53 that a float cannot hold", "anchors": ["lib/src/value.rs: PartialEq for Value, PartialOrd for Value"]}
{"id": "C97", "title": "The Debug text of an expression shows how it is grouped", "statement": "The Debug text of an expression that the parser returns is read back as the same tree with parentheses around every operator and index, so two expressions with the same Debug text are the same up to parentheses.", "quantifier": "every expression of every accepted source", "why_tests_cant": "the tests of precedence compare Debug texts of some forty expressions; that the text tells trees apart is what they rest on", "anchors": ["lib/src/syntax.rs: Debug for Expr"]}
{"id": "C98", "title": "Names of variables and requests do not matter", "statement": "Renaming the variables of a script and the requests it defines, everywhere and without making two names one, changes nothing but those names: every value, every message sent and everything printed stay the same, and records differ only in the name of the request; only the errors for an unknown variable or function show the new name.", "quantifier": "every script, every injective renaming that keeps the builtin functions, every state, network and way of starting (am eval, am test)", "why_tests_cant": "a name that means something special to the interpreter only shows when a script happens to use it; tests use a handful of names", "anchors": ["lib/src/evaluator.rs: eval_ident, eval_let, eval_call", "lib/src/context.rs", "lib/src/native.rs"]}
{"id": "C99", "title": "A request goes to the host and port of its URL", "statement": "A request is sent only over a connection to an address found for exactly the host and port that the second word of its first line names (localhost and port 80 without one), over TLS after that host's name has been checked; how any other host or port is looked up makes no difference, and without a connection nothing is sent. If a template has method and address written out up to the slash after host and port, no value of a variable changes where it goes; without the slash one can.", "quantifier": "every message, template, context, network, schedule of connection attempts and way reads and writes go", "why_tests_cant": "tests use one local server; a wrong host or port, or a value that redirects a request, only shows with another host listening", "anchors": ["lib/src/http/client.rs: send", "lib/src/http/stream.rs: connect, connect_tcp, connect_tls", "lib/src/http/url.rs", "lib/src/evaluator.rs: eval_call"]}
{"id": "C100", "title": "A script talks only to the servers written in its requests", "statement": "If every request of a script has its method and the address of one of certain servers written out up to the slash after host and port, then nothing the script does in am eval, in the REPL or in am test - whatever the values of variables, the answers of the servers and the schedule - sends a message to any other server. Without written-out addresses a server can decide where the next request goes.", "quantifier": "every script, REPL session and test run, every network and schedule, every list of servers", "why_tests_cant": "an answer that redirects a later request has to be thought of by the tester; the claim is about all answers", "anchors": ["lib/src/evaluator.rs: eval_call_expr", "lib/src/http/url.rs", "cmd/src/command.rs: eval, repl, test"]}
{"id": "C101", "title": "The lines typed at the prompt are the lines evaluated", "statement": "Whatever the bytes on standard input are, the REPL handles exactly their lines: the parts between line feeds, without a carriage return before the line feed; the last line needs no line end; a line that is not UTF-8 is passed over and changes nothing for the other lines. No request defined at the prompt spans lines.", "quantifier": "every sequence of bytes on standard input", "why_tests_cant": "ranges over all byte sequences, among them every kind of invalid UTF-8", "anchors": ["cmd/src/command.rs: repl"]}
{"id": "C102", "title": "Only JSON is taken for JSON", "statement": "When the map of a response has the entry json, the body of the response is JSON.", "quantifier": "every response", "why_tests_cant": "ranges over all bodies", "anchors": ["lib/src/http/response.rs: to_map", "lib/src/syntax.rs: Expr::eval"]}
{"id": "C103", "title": "Reading a text takes time in proportion to its length", "statement": "The parser calls itself and goes round its loops at most twice for every token of the text, the end marker included, however the text is nested and whether or not it is accepted. A text of expressions is read in exactly as many steps as its expressions have nodes and list elements.", "quantifier": "every text, a script or the body of a response", "why_tests_cant": "ranges over all texts; a timing can only be taken for a few of them, and nesting is where backtracking parsers become exponential", "anchors": ["lib/src/parser.rs: Parser::parse, parse_expr, parse_list, parse_pairs, parse_block"]}
{"id": "C104", "title": "A short script cannot use up the memory", "statement": "The room taken by the variables of a run is in proportion to the length of the script, the variables it starts with and the responses it receives: there is a constant c such that a script of n characters leaves at most c*(n+1) characters in its variables.", "quantifier": "every script, context of variables and requests, and network", "why_tests_cant": "ranges over all scripts and all response bodies; a test sees only the sizes of the scripts it runs", "anchors": ["lib/src/evaluator.rs: eval_expr, eval_block", "lib/src/value.rs: Add, Display", "lib/src/native.rs: format, append"]}
{"id": "C105", "title": "Every run of a script ends after a number of steps its text bounds", "statement": "In one run every expression of a script is evaluated at most once, and every assert at most once in each call of its request: the evaluator calls itself and goes round its loops at most once for every node and list element of the script and, for each call, of the asserts of the request called, wherever the run stops. A script of n characters takes at most 2(n+1) steps without requests, and at most 2(n+1)(2(n+1)+1) with them. Without branches and requests, a run that ends well takes exactly as many steps as there are nodes and list elements.", "quantifier": "every script, context of variables and requests, and network", "why_tests_cant": "ranges over all scripts, contexts and networks; a test times a few runs", "anchors": ["lib/src/evaluator.rs: eval_expr, eval_block, eval_list, eval_map_literal, eval_call_expr"]}
{"id": "C106", "title": "A response takes room in proportion to its bytes", "statement": "The map a script gets for a response takes room in proportion to the bytes received: there is a constant c such that a response of n bytes makes a map of at most c*(n+1) characters and entries.", "quantifier": "every response a server can send", "why_tests_cant": "ranges over all responses, also hostile ones; a test tries a few bodies, and no ordinary JSON body shows the growth", "anchors": ["lib/src/http/response.rs: Response::to_map", "lib/src/syntax.rs: Expr::eval", "lib/src/value.rs: Display"]}
{"id": "C107", "title": "Exactly which gaps between tokens may be left out", "statement": "A list of tokens written one after the other, with any white space or none before each, is read as these tokens exactly if there is white space wherever two words, a word and a number after it, two numbers, a number and a dot, or two operators that make a longer one would meet. Every text is of this form up to a missing last quotation mark. Without its needless white space a text is the same program, and no shorter text has the same tokens, up to one quotation mark.", "quantifier": "every list of tokens, every choice of gaps, every text", "why_tests_cant": "ranges over all texts and all ways to space them; a test tries a few layouts", "anchors": ["lib/src/lexer.rs: segment and the readers of words, numbers and operators"]}
{"id": "C108", "title": "Definitions that are not used change nothing", "statement": "Adding, changing or leaving out a request that no expression calls, or a test other than the one run, changes nothing: am eval, the rest of a session, and am test with a name send the same messages, print the same text and leave the same variables, records, record files and statistics.", "quantifier": "every pair of accepted texts with the same expressions that agree on the requests called, every network, every schedule of the threads", "why_tests_cant": "ranges over all scripts, networks and schedules; a test removes one definition and looks at one run", "anchors": ["lib/src/evaluator.rs: eval_call_expr", "lib/src/context.rs: extend, request", "cmd/src/command.rs: eval, repl, test"]}
{"id": "C109", "title": "What a run keeps in memory does not grow with the number of iterations", "statement": "While am test name runs, everything the program keeps (the variables and records of its threads, the batches waiting to be counted, the statistics) takes room that has a bound independent of the number of iterations, for every schedule of the threads.", "quantifier": "every test, context, number of threads and iterations, every schedule, every network with bounded answers", "why_tests_cant": "ranges over runs of any length and all schedules; a test watches the memory of one run for a while", "anchors": ["cmd/src/command.rs: test", "lib/src/context.rs: take_records", "lib/src/evaluator.rs: eval_block", "lib/src/stat.rs: Stats::add"]}
{"id": "C110", "title": "What one answer says reaches the next request", "statement": "A script that takes a string, an integer, a boolean or null from any place of the JSON answer to one request and keeps it in a variable sends the next request with the text of that value (for a string the text it denotes, for an integer its digits as the server wrote them) wherever the template names the variable, with the other variables as they were, and with exactly one message per call.", "quantifier": "every JSON document in every layout, every place in it, every pair of requests, every template, every state and network", "why_tests_cant": "ranges over all documents, places, templates and states; a test follows one token through one pair of requests", "anchors": ["lib/src/http/response.rs: to_map", "lib/src/syntax.rs: Expr::eval", "lib/src/evaluator.rs: eval_call_expr, index, field, let", "lib/src/context.rs: render"]}
{"id": "C111", "title": "Statements that do not depend on each other can change places", "statement": "If two parts of a script that follow each other read no variable the other sets, set no common variable, and one of them neither calls a request nor prints, then exchanging them changes nothing: each part has the same outcome, and afterwards the messages sent, the printed text, the records and all variables are the same. Calling a request counts as reading the variables of its template. Inside a longer script this holds if the part that only computes has a value and more follows.", "quantifier": "every pair of parts, every script around them, every state and network", "why_tests_cant": "ranges over all scripts, states and networks; a test exchanges two lines of one script", "anchors": ["lib/src/evaluator.rs: eval_block, eval_expr, eval_call_expr", "cmd/src/command.rs: eval"]}
{"id": "C112", "title": "Giving a name to an expression that occurs again changes nothing", "statement": "If an expression without let, request and printing is put into a new variable, and the variable stands for the expression at any places of the following script, which sets neither the variable nor any variable the expression reads, then the script has the same outcome, sends and prints the same, makes the same records and leaves the same other variables, provided the expression has a value where the variable is set. The same holds in the other direction.", "quantifier": "every expression, every choice of places, every script before and after, every state and network", "why_tests_cant": "ranges over all scripts and all choices of occurrences; a test compares two versions of one script", "anchors": ["lib/src/evaluator.rs: eval_expr, eval_block", "cmd/src/command.rs: eval"]}
{"id": "C113", "title": "The letter case of header names does not matter", "statement": "Header names are case-insensitive (RFC 9110, 5.1): a message in which names of headers are written in other letter case is the same request with the same content apart from the case of these names (in particular, form and multipart bodies are recognised); a response in which names of headers are in other letter case is read as the same response apart from these names; and looking up a header in a script gives all values received under its name in any letter case.", "quantifier": "every message, every response, every choice of names and letters", "why_tests_cant": "ranges over all messages and responses and all ways to write their names; a test tries one header in one spelling", "anchors": ["lib/src/http/request.rs: Request::from", "lib/src/http/response.rs: Response::from, to_map", "lib/src/http/header.rs"]}
{"id": "C114", "title": "Running a script again does the same", "statement": "With the same servers, a script does the same on every run: the same result or error, variables, records, messages sent and text printed, whatever order the hash maps of the run happen to be iterated in.", "quantifier": "every script, every session, every state and network, every two iteration orders", "why_tests_cant": "the iteration order of hash maps is random per process; a test sees one order at a time, and ranges over one script", "anchors": ["lib/src/value.rs: Display, Debug", "lib/src/evaluator.rs: eval_call_expr, index, map literals", "lib/src/native.rs: format", "lib/src/http/response.rs: to_map", "lib/src/syntax.rs: Expr::eval"]}
{"id": "C115", "title": "Media types are recognised as the standard writes them", "statement": "A message whose Content-Type header names application/x-www-form-urlencoded or multipart/form-data - in any letter case and with or without parameters (RFC 9110, 8.3.1) - is sent with a form body or a multipart body.", "quantifier": "every message, every value of the Content-Type header, every body", "why_tests_cant": "ranges over all ways to write a media type; a test tries one spelling", "anchors": ["lib/src/http/request.rs: Request::from", "lib/src/http/content.rs"]}
{"id": "C116", "title": "Usual rewritings of expressions keep their meaning", "statement": "Rewriting expressions with the usual laws - m.x as m[\"x\"], dropping parentheses, !(a == b) as a != b, an operator between literals as its result, if (true) and true && e as what they choose, if (!c) {a} else {b} as if (c) {b} else {a}, !!c as c, the laws of De Morgan, && and || as if - at any number of places of a script, also in the sides of asserts, changes no result, variable, record of an exchange, message sent or printed text, apart from the wording of errors and the shown form of asserts.", "quantifier": "every script, every number of places in either direction, every state and network", "why_tests_cant": "ranges over all scripts and all places in them; a test compares two given scripts", "anchors": ["lib/src/evaluator.rs: eval_unary_expr, eval_binary_expr, eval_if_expr, eval_index_expr, eval_field_expr", "lib/src/syntax.rs: Expr::eval"]}
{"id": "C117", "title": "The layout of a message does not matter", "statement": "Laying out the messages of requests differently - white space before the first line and at the ends of the lines of the head, blanks between the words of the first line and around the colon of a header, line ends with or without a carriage return - changes no result, variable, record, printed text, assert or test of a run, and every message sent is the same request with the same content.", "quantifier": "every message with any placeholders, every state, every script, every network whose answers depend on the requests it gets", "why_tests_cant": "ranges over all layouts and all values of placeholders; a test compares two given messages", "anchors": ["lib/src/http/request.rs: Request::from", "lib/src/evaluator.rs: Request call", "lib/src/http/header.rs"]}
{"id": "C118", "title": "A script saved with Windows line ends does the same", "statement": "A source text with a carriage return put before every line feed is accepted, rejected or never read to the end exactly when the original is, and evaluating it changes no result, variable, record, printed text or test, and sends the same requests with the same content.", "quantifier": "every source text, every state, every network whose answers depend on the requests it gets", "why_tests_cant": "ranges over all texts and all places of line ends in them; a test compares two given files", "anchors": ["lib/src/lexer.rs: segment", "lib/src/parser.rs", "lib/src/http/request.rs: Request::from", "lib/src/evaluator.rs"]}
{"id": "C119", "title": "Asserts only judge", "statement": "Adding, removing or changing the asserts of requests changes nothing but the verdicts: every value, every variable, every message sent, everything the script prints, the statistics and the steps of a test run stay the same, and the records are of the same exchanges. This holds for asserts that bind no name, do not print and cannot crash.", "quantifier": "every script, every two lists of asserts for every request, every state, network and schedule; am eval, the prompt and am test", "why_tests_cant": "tests check single asserts; that no assert can reach the rest of a script is about all scripts and all asserts", "anchors": ["lib/src/evaluator.rs: eval_call", "lib/src/context.rs: Context::from", "cmd/src/command.rs: test"]}
{"id": "C120", "title": "The order of the asserts does not matter", "statement": "With the asserts of a request in another order, each assert has the same result, the record passes or fails as before, and everything else is the same.", "quantifier": "every script, every order of the asserts of every request, every state, network and schedule; am eval, the prompt and am test", "why_tests_cant": "an influence of one assert on a later one shows only for particular pairs of asserts", "anchors": ["lib/src/evaluator.rs: eval_call", "lib/src/context.rs: Record"]}
{"id": "C121", "title": "Operands may be exchanged and regrouped", "statement": "Writing `b > a` for `a < b`, `b >= a` for `a <= b`, exchanging the operands of `*`, `&`, `|`, `^`, of `==` and `!=` next to a literal, of `+` next to a number, and regrouping `a & b & c` (also `|`, `^`) or `a + \"text\" + c` at any places of a script changes nothing but the wording of errors and the text that shows how an assert is written: same result, same variables, same requests sent, same output, same verdicts. An assert with exchanged sides has the same verdict with the two values shown the other way round.", "quantifier": "all scripts, all sets of places, all states and all behaviours of the network", "why_tests_cant": "Concerns all pairs of scripts that differ by such steps, all values of the operands (NaN, overflow, mixed types, errors) and all states; tests can only compare a few pairs.", "anchors": ["lib/src/evaluator.rs", "lib/src/value.rs"]}
{"id": "C122", "title": "The order of headers with different names does not matter", "statement": "Exchanging header lines with different names (in any letter case) in a request message gives the same request and content, with the same header lines on the wire in another order. Exchanging them in a response gives a response in which every header is found with the same values, and a script, a session or a test run does the same as before: same messages sent, same output, same results, verdicts and reports, whatever the iteration order of hash maps.", "quantifier": "all messages, all responses, all scripts and sessions, all states, all pairs of networks that differ in this way, all iteration orders", "why_tests_cant": "Concerns all pairs of answers at every exchange of every run; tests compare a few fixed answers, and hash map order hides or shows differences at random.", "anchors": ["lib/src/http/request.rs", "lib/src/http/response.rs", "lib/src/evaluator.rs"]}
{"id": "C123", "title": "Spreading the iterations over threads changes nothing but the order", "statement": "Against servers that always answer the same, am test name --number n sends the same messages equally often and counts the same in its statistics for every number of threads and every schedule; every iteration sends, prints and records what a single run of the test does.", "quantifier": "all tests, all contexts, all numbers of threads and iterations, all schedules, all networks that answer the same up to times", "why_tests_cant": "Concerns all pairs of numbers of threads with all their interleavings; a test observes one schedule of one pair.", "anchors": ["cmd/src/command.rs", "lib/src/evaluator.rs", "lib/src/stat.rs"]}
{"id": "C124", "title": "Records tell when each exchange took place and how long it took", "statement": "The record of every exchange has the clock readings before and after the exchange as start and end and the time between them as total, whether the exchange succeeded or failed; and the records of a script, and of all iterations of a thread, are in order of time: each ends after it starts and before the next one starts.", "quantifier": "all scripts, all states, all networks with a clock that does not go back, all iterations of a thread", "why_tests_cant": "Tests read the times of single successful exchanges on a real clock; order over all runs and the times of failed exchanges are not looked at.", "anchors": ["lib/src/http/client.rs", "lib/src/http/time.rs", "lib/src/evaluator.rs", "cmd/src/command.rs"]}
{"id": "C125", "title": "Answers have no influence on what is sent and printed unless the script reads them", "statement": "If a script puts what servers answer only where nothing is decided, sent or printed with it (variables, comparisons, fields and indices of answers, arguments of requests), then it sends the same messages, prints the same text and records the same requests whatever the servers answer, as long as both runs end; a run that an answer crashes or hangs has sent and printed the beginning of what the other one has sent and printed. The same holds for all threads and iterations of am test.", "quantifier": "all scripts of this kind, all states, all pairs of networks, all schedules of two runs of am test", "why_tests_cant": "A relation between two runs over all pairs of possible answers; a test observes one answer of one server.", "anchors": ["lib/src/evaluator.rs", "lib/src/http/client.rs", "lib/src/native.rs", "cmd/src/command.rs"]}
{"id": "C126", "title": "Hash maps listed in any order, each time another", "statement": "Let every map be listed in any order whenever it is turned into text, chosen anew each time. If no value turned into text has a map with two or more entries, then a script, a line of a session or a whole session still has exactly one possible outcome: result or error, variables, records, messages sent and text printed. Without that condition a script may print one map in two ways.", "quantifier": "every script, session, state and network; every sequence of orders", "why_tests_cant": "the orders are random per map; a test sees one of them", "anchors": ["lib/src/value.rs: Display, Debug", "lib/src/evaluator.rs: eval_expr, eval_call_expr", "lib/src/native.rs: format", "lib/src/http/response.rs: to_map", "lib/src/syntax.rs: Expr::eval", "cmd/src/command.rs: eval, repl"]}
{"id": "C127", "title": "What holds whatever the order of hash maps", "statement": "Let every map be listed in any order whenever it is turned into text, chosen anew each time, with no condition on the values. Then still: evaluation ends if the bodies received can be parsed; at most as many requests are sent as calls are written; variables without a let and the table of requests are unchanged; one record per message sent is added, in sending order, each for a known request with its placeholders replaced by texts of the variables; and without operators that can panic, and with clocks that never go backwards, nothing panics.", "quantifier": "every block, state and network; every sequence of orders", "why_tests_cant": "the orders are random per map; a test sees one of them, and the claim is about all blocks", "anchors": ["lib/src/evaluator.rs: eval_expr, eval_call_expr", "lib/src/value.rs: Display, Debug", "lib/src/native.rs: format", "lib/src/http/response.rs: to_map"]}
{"id": "C128", "title": "Names that are defined are found", "statement": "A script that sets its variables before it reads them (or starts with values for them), on every path, and calls only built-in functions and requests that exist, never fails with \"ident:… not found\" or \"function … not found\", whatever the servers answer; and every placeholder of every request it sends is replaced by the text of a variable that has a value. Without if, && and || the check is exact: a script that does not pass it has no value.", "quantifier": "every script, state and network", "why_tests_cant": "which path a script takes depends on answers; a test sees some paths, the claim is about all of them", "anchors": ["lib/src/evaluator.rs: eval_expr, eval_ident, eval_call_expr", "lib/src/native.rs"]}
{"id": "C129", "title": "Statements whose results nobody uses can be removed", "statement": "Statements that send and print nothing, have a value where they stand, and set only variables that nothing after them reads can be removed from a script: the outcome, the messages sent, the text printed, the records and all other variables are the same.", "quantifier": "every script, every place in it that is not its end, every state and network", "why_tests_cant": "a relation between two programs for all scripts and answers", "anchors": ["lib/src/evaluator.rs: eval_block, eval_expr", "cmd/src/command.rs: eval"]}
{"id": "C130", "title": "A script whose kinds of values fit does not fail", "statement": "There is a check of scripts, made before anything runs, that works out what kind of value every expression has (integer, float, text, array, map, response and so on, following assignments and both branches of an if) and accepts a script only where the kinds fit the operators, indexes, fields and calls, and where format texts have as many placeholders as arguments. A script that passes never ends with an error, whatever the servers answer and whatever the asserts say, and its value and variables are of the kinds found; it can only crash or hang in the ways of C14 and C06, and where those are excluded it has a value. The same holds for the top level and for every iteration of every test of am test under every schedule.", "quantifier": "every script that passes the check, every state with variables as assumed, every network, every run and schedule", "why_tests_cant": "a test sees one set of answers and some paths; the claim is about all of them", "anchors": ["lib/src/evaluator.rs: eval_expr, eval_call_expr", "lib/src/value.rs: operators", "lib/src/native.rs", "lib/src/http/response.rs: to_map", "cmd/src/command.rs: test"]}
{"id": "C131", "title": "A run can be reproduced from its records", "statement": "If a script ended with a value or an error, then on any network that answers the messages one after the other with the responses in the records of that run, whatever is sent and at any speed, the script ends with the same value or error, sends the same messages, prints the same text, leaves the same variables and makes records with the same names, responses and assert results. Such a network exists for every run, and it need not look at anything but the number of messages sent before.", "quantifier": "every script, state and network, every replaying network", "why_tests_cant": "a relation between two runs on different networks for all scripts", "anchors": ["lib/src/evaluator.rs: eval_call_expr", "lib/src/context.rs: Record", "lib/src/http/client.rs: send"]}
{"id": "C132", "title": "Secrets stay with the requests they are meant for", "statement": "A password or token goes only where it is meant to go. If values that depend on a secret are put only into the messages of certain requests, and are otherwise only kept, compared or looked into but neither branched on nor printed, then two runs with different secrets send the same messages in all other requests, print the same text and keep the same records of them, whatever the servers that get the secret answer.", "quantifier": "for all scripts that obey the rules, all sets of requests meant for secrets, all pairs of states that differ in secret variables, all networks in which the other servers do not hear of the secret, all iterations of a thread", "why_tests_cant": "The claim compares pairs of runs for all secrets and all answers of the servers that learn them; a test fixes one secret and one server, and sees a leak only if it happens to depend on that value.", "anchors": ["lib/src/evaluator.rs", "lib/src/context.rs", "lib/src/http/client.rs"]}
{"id": "C133", "title": "An answer has no influence on what came before it", "statement": "If a script is run from the same state against two networks that give the same answers to the first n messages, the first n+1 messages are the same in both runs, and so is everything printed and recorded before the answer to the (n+1)-th message is waited for; a run that sends no more than n messages is the same in every respect. More generally two networks that differ only in some exchanges lead to the same run up to the first of these exchanges.", "quantifier": "all scripts, states, networks, and sets of exchanges in which two networks differ", "why_tests_cant": "It relates two runs of every script against every pair of networks that agree up to a point; a test sees one script and two networks.", "anchors": ["lib/src/evaluator.rs:166-231", "lib/src/http/client.rs:18-42", "cmd/src/command.rs"]}
{"id": "C134", "title": "The value of a variable may be written out in a template", "statement": "Where a variable has a certain text, and the rest of the script does not set it, the text may be written into the message of a request in place of the placeholder: the script ends with the same outcome, sends the same messages, prints the same text and leaves the same variables and records. The text must not form a new placeholder with what stands around it; a text without an opening brace never does. The same holds for whole source texts given to am eval or am test, and for every run of the threads.", "quantifier": "all scripts, states, networks, source texts and schedules, all sets of variables, all ways to write some of the placeholders out", "why_tests_cant": "It relates pairs of programs for every choice of placeholders and values; a test compares two programs.", "anchors": ["lib/src/evaluator.rs:164-231", "cmd/src/command.rs"]}
{"id": "C135", "title": "Runs of tests whatever the order of hash maps", "statement": "Every hash map may list its entries in another order each time it is shown, in every iteration of every thread. Even so, in a run of a named test a thread that has ended has printed exactly the texts and records of its iterations, its record file holds exactly these records, it has made no more iterations than it was to make, and the statistics have counted, or still find in the channel, the records of all iterations, each once. In a run of all tests each thread has printed and recorded exactly one evaluation of its test.", "quantifier": "all tests, networks, schedules, numbers of threads and iterations, all orders of hash maps at every moment", "why_tests_cant": "The orders of hash maps and the schedule of the threads are chosen at random at run time; a test sees one choice.", "anchors": ["cmd/src/command.rs:79-161", "lib/src/value.rs", "lib/src/evaluator.rs"]}
{"id": "C136", "title": "A test may be replaced by one that does the same", "statement": "If two tests, begun in contexts that correspond, end in the same way, print the same and record the same, and leave contexts that correspond again, then the runs of am test with the one and with the other are the same step by step: the same schedules are possible, with the same output, the same record file of every thread and the same statistics. So it is for tests that give the same from every state, and for a test from which statements are removed that only compute and set variables nothing else in the test reads, in this iteration or the next; for a test in which statements that do not depend on each other change places; and for a test in which an expression is given a name.", "quantifier": "all tests, networks, schedules, numbers of threads and iterations, all relations between contexts", "why_tests_cant": "The claim compares two runs under every schedule and every answer; a test compares two runs under one schedule, which the system chooses.", "anchors": ["cmd/src/command.rs:79-161", "lib/src/evaluator.rs", "lib/src/context.rs"]}
