{"id": "C01", "title": "ParseQuery always terminates with exactly one of AST / error", "statement": "For every query text ParseQuery returns after finitely many steps, with recursion depth at most linear in the query length, and yields either a non-nil AST and a nil error or a nil AST and a non-nil error; no panic escapes.", "quantifier": "for all byte strings (valid or invalid UTF-8), of any length", "why_tests_cant": "a test set is finite; termination and absence of escaping panics quantify over all inputs", "anchors": ["internal/grammar/aql.peg:Start", "internal/grammar/parser_gen.go:parse", "internal/grammar/parser_gen.go:parseRule", "internal/grammar/parser_gen.go:parseExpr", "parser/parser.go:ParseQueryReader"]}
{"id": "C02", "title": "Every well-formed query is accepted with the intended tree (precedence, associativity, whitespace)", "statement": "For every query in the documented grammar - fields, operators, literals, lists, NOT/!, AND, OR, parentheses, and any amount of space/tab/newline where allowed - the parser returns exactly the intended tree: NOT binds tighter than AND, AND tighter than OR, AND and OR associate to the right, parentheses override, whitespace does not matter.", "quantifier": "for all concrete syntax trees of unbounded depth, list length and literal length", "why_tests_cant": "unbounded nesting and ordered-choice interactions (an earlier alternative capturing a prefix) cannot be enumerated", "anchors": ["internal/grammar/aql.peg:OrClause", "internal/grammar/aql.peg:AndClause", "internal/grammar/aql.peg:NotClause", "internal/grammar/aql.peg:Comparison", "internal/grammar/aql.peg:ValueList", "internal/grammar/aql.peg:BareValue", "internal/grammar/parser_gen.go:parseChoiceExpr"]}
{"id": "C03", "title": "Every accepted query is a sentence of the documented grammar", "statement": "If the parser accepts a text then the text is a sentence of the documented grammar and the returned tree is the one that sentence denotes.", "quantifier": "for all texts", "why_tests_cant": "soundness of acceptance is about all strings, including ones nobody thought of", "anchors": ["internal/grammar/aql.peg", "internal/grammar/parser_gen.go"]}
{"id": "C04", "title": "Numeric, boolean, date, network and string literals get the documented type and value", "statement": "Each literal form (quoted string, regex, timestamp, date, IPv4/CIDR, float, integer, boolean) is classified by its lexical shape and carries the value that its text denotes; integers outside int64, impossible dates and octets above 255 are rejected.", "quantifier": "for all literal texts", "why_tests_cant": "classification depends on ordered choice with shared prefixes (2020-01-01 / 20.20 / 20)", "anchors": ["internal/grammar/aql.peg:BareValue", "parser/ast/ast.go:NewIntVal", "parser/ast/ast.go:NewTimeVal", "parser/ast/ast.go:NewNetVal"]}
{"id": "C05", "title": "Positions in the AST are exact", "statement": "Every comparison node and every value in a returned AST carries offset, length, line and column that identify exactly its own source text (offset counted in bytes, length and column in runes, first line/column 1).", "quantifier": "for all accepted texts and all nodes and values in them", "why_tests_cant": "position bookkeeping across backtracking and newlines depends on the whole history of the parse", "anchors": ["internal/grammar/parser_gen.go:read", "internal/grammar/parser_gen.go:restore", "internal/grammar/aql.peg:getpos", "parser/ast/ast.go:Pos"]}
{"id": "C06", "title": "Error positions lie inside the query (line and column refuted at a line break)", "statement": "Whenever ParseQuery fails at the grammar stage the reported offset is between 0 and the length of the query and line and column are those of that offset. The offset always is; line and column are, unless the error is at a line break, where the code reports column 0 of the next line.", "quantifier": "for all rejected texts", "why_tests_cant": "furthest-failure tracking depends on all backtracking paths", "anchors": ["internal/grammar/parser_gen.go:failAt", "internal/grammar/parser_gen.go:addErrAt", "internal/grammar/aql.peg:GetParseError"]}
{"id": "C07", "title": "Invalid UTF-8 is never accepted", "statement": "A query text that contains a byte sequence that is not valid UTF-8 is rejected.", "quantifier": "for all byte strings", "why_tests_cant": "needs all positions of all malformed sequences", "anchors": ["internal/grammar/parser_gen.go:read", "internal/grammar/parser_gen.go:parse"]}
{"id": "C08", "title": "Parse cost is polynomial in query length (refuted)", "statement": "The number of expression evaluations done by the parser is bounded by a polynomial in the query length. The code violates this: a comparison inside n parentheses costs at least 4^n evaluations because AndClause/OrClause re-parse their left operand and memoisation is off. What holds instead: the number of evaluations is at most a cubic polynomial of the length times four to the number of opening parentheses, in particular cubic for queries without parentheses, and four cannot be replaced by a smaller number.", "quantifier": "for all nesting depths n", "why_tests_cant": "no finite timing test proves an asymptotic bound", "anchors": ["internal/grammar/aql.peg:OrClause", "internal/grammar/aql.peg:AndClause", "internal/grammar/parser_gen.go:parseExpr", "internal/grammar/parser_gen.go:memoize"]}
{"id": "C09", "title": "A recorded error is never lost by backtracking", "statement": "If any literal action reports an error while parsing (bad escape, bad date, unterminated string or regex, unknown value, superfluous parentheses), the parse fails and the reported error is the first one recorded.", "quantifier": "for all texts", "why_tests_cant": "depends on every alternative tried", "anchors": ["internal/grammar/parser_gen.go:addErr", "internal/grammar/parser_gen.go:parse", "internal/grammar/aql.peg:Value", "internal/grammar/aql.peg:EndingQuote", "internal/grammar/aql.peg:EndingSlash"]}
{"id": "C10", "title": "Star path segments are transparent", "statement": "A field path with '*' segments denotes the same path as with those segments removed (also for a quoted \"*\", which therefore cannot address a key named '*').", "quantifier": "for all paths", "why_tests_cant": "unbounded paths and segment positions", "anchors": ["internal/grammar/aql.peg:Field", "internal/grammar/aql.peg:removeStars", "internal/grammar/aql.peg:findStarIdx"]}
{"id": "C11", "title": "A slash-delimited regex is compiled from exactly its body (refuted in general)", "statement": "The pattern compiled for /body/ is the body with each \\/ replaced by /. The code unescapes the whole literal and then strips every leading and trailing slash, so the statement holds exactly when the unescaped body neither begins nor ends with a slash and the body does not end with a backslash; a body that ends with an escaped backslash loses it.", "quantifier": "for all regex literals", "why_tests_cant": "the edge cases are combinations of escapes at the boundaries", "anchors": ["internal/grammar/aql.peg:RegexValue", "parser/ast/ast.go:NewRegexpVal"]}
{"id": "C12", "title": "Accepted queries satisfy the operator typing rules", "statement": "The validation pass accepts a comparison exactly when its operator's arity and operand types are allowed, its values are pairwise distinct as printed, it does not list both true and false under equality, and between operands are ordered.", "quantifier": "for all comparisons and operand lists", "why_tests_cant": "quantifies over all operand lists of all lengths", "anchors": ["parser/validators.go:opValidator", "parser/validators.go:checkValues", "parser/validators.go:checkArity", "parser/validators.go:checkRVals", "parser/validators.go:checkBetween"]}
{"id": "C13", "title": "Between operands are of one kind (refuted in general)", "statement": "Every accepted between comparison has two numbers or two datetimes with the first strictly before the second. The code accepts a negative number followed by a datetime and treats the datetime as 0. Exactly: two distinct operands are accepted iff they are of one kind and in order, or a negative number followed by a datetime.", "quantifier": "for all operand pairs", "why_tests_cant": "the failing region is a sign/type combination", "anchors": ["parser/validators.go:checkBetween", "jsonmatcher/expr_between.go:exprBetween"]}
{"id": "C14", "title": "Validation covers every node", "statement": "ParseQuery accepts a syntactically valid query exactly when every comparison in the tree passes validation, whatever the nesting, and reports the first failing comparison in left-to-right order.", "quantifier": "for all ASTs", "why_tests_cant": "unbounded trees", "anchors": ["parser/parser.go:ParseQueryReader", "parser/visitors.go:walk", "parser/validators.go:opValidator"]}
{"id": "C15", "title": "Visitor traversal: preorder, Skip, SkipAll, errors", "statement": "A visitor sees nodes in depth-first left-to-right preorder; returning Skip omits exactly that node's descendants; SkipAll ends the walk without error; any other error ends the walk and is returned.", "quantifier": "for all trees and all visitor behaviours (including stateful ones)", "why_tests_cant": "visitors are arbitrary functions", "anchors": ["parser/visitors.go:walk", "parser/visitors.go:walkr"]}
{"id": "C16", "title": "An error message on the tape fails the parse (refuted)", "statement": "If a message visitor records an Error message, ParseQuery returns it as an error (documented). The code never does: no sequence of tape operations ever makes the parse fail.", "quantifier": "for all message visitors and all trees", "why_tests_cant": "quantifies over all visitor programs", "anchors": ["parser/visitors.go:addMsg", "parser/visitors.go:MessageTape", "parser/parser.go:ParseQueryReader"]}
{"id": "C17", "title": "Messages preserve order and do not change the outcome", "statement": "Messages() returns exactly the messages that were recorded, in recording order, and the presence of a message visitor that returns no error never changes the AST or the error returned.", "quantifier": "for all visitors and queries", "why_tests_cant": "arbitrary visitor histories", "anchors": ["parser/visitors.go:addMsg", "parser/parser.go:ParseQueryReader", "jsonmatcher/query_messages.go:messageVisitor"]}
{"id": "C18", "title": "NewMatcher never panics", "statement": "For every query accepted by ParseQuery the matcher can be built: no backstop panic in the builder is reachable and every generated string-search regular expression is syntactically valid.", "quantifier": "for all accepted queries, including all string literals", "why_tests_cant": "string literals are arbitrary; regex injection must be excluded for all of them", "anchors": ["jsonmatcher/build_matcher.go:build", "jsonmatcher/str_matchers.go:stringSearchRegexp", "jsonmatcher/expr_numeric.go:exprNumeric", "jsonmatcher/expr_between.go:exprBetween", "jsonmatcher/expr_eq.go:exprEQ"]}
{"id": "C19", "title": "Match never panics (refuted in general)", "statement": "Match on a valid JSON document never panics. The code violates it: a query whose field consists only of '*' segments has an empty path and Match panics; for queries in which every field has a named segment it holds on every object document. Exactly, on object documents: Match panics iff left-to-right short-circuit evaluation reaches a comparison without a named segment.", "quantifier": "for all queries and documents", "why_tests_cant": "crash freedom over all inputs", "anchors": ["jsonmatcher/json_values.go:getValues", "jsonmatcher/json_values.go:current", "internal/grammar/aql.peg:removeStars"]}
{"id": "C20", "title": "Boolean connectives mean what they say", "statement": "On every document, `A AND B` matches iff both match, `A OR B` iff at least one matches, `NOT A` iff A does not; hence De Morgan, commutativity, distributivity and double negation hold for results.", "quantifier": "for all queries and documents", "why_tests_cant": "all trees and all documents", "anchors": ["jsonmatcher/nodes.go:andNode", "jsonmatcher/nodes.go:orNode", "jsonmatcher/nodes.go:notNode"]}
{"id": "C21", "title": "An equality set is the disjunction of its members", "statement": "`f:(v1,...,vn)` matches a document iff some `f:vi` does.", "quantifier": "for all fields, value lists and documents", "why_tests_cant": "unbounded lists and mixed types", "anchors": ["jsonmatcher/expr_eq.go:exprEQ", "jsonmatcher/nodes.go:exprNode"]}
{"id": "C22", "title": "`~` is equivalent to plain equality", "statement": "`f:~V` and `f:V` match exactly the same documents for every V accepted with ~.", "quantifier": "for all values and documents", "why_tests_cant": "all documents", "anchors": ["jsonmatcher/build_matcher.go:build"]}
{"id": "C23", "title": "Field resolution: paths see through objects and arrays of objects", "statement": "The values a path resolves to are exactly those reached by following object members (first member with that name) and, at any intermediate point, stepping into the object elements of an array (not into arrays nested directly in arrays).", "quantifier": "for all documents and non-empty paths", "why_tests_cant": "unbounded nesting of objects and arrays", "anchors": ["jsonmatcher/json_values.go:getValues", "jsonmatcher/json_values.go:getField"]}
{"id": "C24", "title": "`exists` matches iff the path resolves", "statement": "`f:exists` matches iff the path resolves to at least one value of any type (including null).", "quantifier": "for all documents and paths", "why_tests_cant": "all documents", "anchors": ["jsonmatcher/expr_exists.go", "jsonmatcher/nodes.go:exprNode"]}
{"id": "C25", "title": "`null` matches iff the path resolves and only to null", "statement": "`f:null` matches iff the path resolves to at least one value and every value it resolves to is a JSON null.", "quantifier": "for all documents and paths", "why_tests_cant": "all documents", "anchors": ["jsonmatcher/expr_null.go", "jsonmatcher/nodes.go:exprNode"]}
{"id": "C26", "title": "Any positive comparison implies `exists`; `null` excludes value comparisons", "statement": "If any comparison on a field matches then `exists` matches on that field, and if `null` matches then no value comparison on that field matches.", "quantifier": "for all comparisons, fields, documents", "why_tests_cant": "relational property across queries", "anchors": ["jsonmatcher/nodes.go:exprNode", "jsonmatcher/expr_null.go", "jsonmatcher/json_values.go:scalarValues"]}
{"id": "C27", "title": "Array introspection is existential over direct scalar elements", "statement": "A value comparison matches iff at least one scalar that the path resolves to, or that is a direct element of an array the path resolves to, satisfies it; objects and nested arrays never do.", "quantifier": "for all comparisons and documents", "why_tests_cant": "unbounded arrays", "anchors": ["jsonmatcher/json_values.go:scalarValues"]}
{"id": "C28", "title": "Numeric comparisons follow the order of the nearest doubles", "statement": "f:<v, <=, >, >=, : and ><(a,b) match iff some scalar under f is a JSON number, or a string spelling a number, whose nearest double is in the stated relation to the nearest double of the literal; ><(a,b) includes both end points; values that are not a number match nothing.", "quantifier": "for all literals and documents", "why_tests_cant": "all numerals, rounding and special values", "anchors": ["jsonmatcher/expr_float.go:matches", "jsonmatcher/json_values.go:getNumberVal", "jsonmatcher/expr_numeric.go"]}
{"id": "C29", "title": "Integer equality is exact (refuted beyond 2^53)", "statement": "f:n matches a JSON integer m iff n = m. Holds for literals with |n| < 2^53 against integers of any size, and when both are at most 2^53 in magnitude; refuted beyond by an explicit pair.", "quantifier": "for all integers", "why_tests_cant": "the failing pairs are sparse", "anchors": ["jsonmatcher/expr_eq.go:exprEQ", "jsonmatcher/expr_float.go:matches"]}
{"id": "C30", "title": "Numeric comparisons are monotone and complementary", "statement": "If f:>a matches and b <= a then f:>b matches (dually for <, <=, >=), strict implies non-strict, >< implies both bounds; on a single numeric (non-NaN) scalar exactly one of <v, :v, >v matches.", "quantifier": "for all literals and documents", "why_tests_cant": "relates infinitely many queries", "anchors": ["jsonmatcher/expr_float.go:matches"]}
{"id": "C31", "title": "A day literal matches exactly the instants of that day", "statement": "f:YYYY-MM-DD matches iff some scalar under f is recognised as a time t with midnight <= t < next midnight UTC, when the day and the times of the document fit 64-bit nanoseconds.", "quantifier": "for all dates in range and all documents", "why_tests_cant": "all instants", "anchors": ["jsonmatcher/expr_eq.go:exprEQ", "jsonmatcher/expr_datetime.go:matches"]}
{"id": "C32", "title": "Datetime comparisons are chronological (refuted outside 1677-2262)", "statement": "f:<t, <=, >, >=, >< compare instants chronologically. Holds when both instants fit 64-bit nanoseconds since 1970; refuted in general: literals such as 2300-01-01 are accepted but wrap around.", "quantifier": "for all literals and documents", "why_tests_cant": "wrap-around needs specific instants", "anchors": ["jsonmatcher/expr_numeric.go:exprNumeric", "jsonmatcher/expr_datetime.go:matches", "jsonmatcher/json_values.go:getDatetimeVal"]}
{"id": "C33", "title": "Date literals order like the calendar", "statement": "Two date literals denote instants ordered as their (year, month, day) triples, consecutive calendar days are 24h apart, and equal text denotes equal instants.", "quantifier": "for all valid dates", "why_tests_cant": "leap-year arithmetic over all dates", "anchors": ["parser/ast/ast.go:NewTimeVal", "parser/validators.go:checkBetween"]}
{"id": "C34", "title": "Network comparison is set intersection", "statement": "f:CIDR matches iff some string or number scalar under f contains (per the documented textual extraction) an IPv4 address inside the block or a CIDR block that shares at least one address with it; a bare address means the single-address block.", "quantifier": "for all blocks and documents", "why_tests_cant": "2^32 addresses times 33 prefix lengths times all texts", "anchors": ["jsonmatcher/expr_net.go:matches", "parser/ast/ast.go:NewNetVal"]}
{"id": "C35", "title": "Wildcard semantics of string literals", "statement": "A string literal with an ASCII (after lower-casing) pattern matches a text iff some substring, delimited by word boundaries, equals the pattern case-insensitively with ? standing for any one character and * for any run (not newline), \\? and \\* standing for themselves and every other character only for itself. Literals with wildcards whose lower-case form is not ASCII are searched in the same way without word boundaries; literals without wildcards that are not ASCII are left to the language library.", "quantifier": "for all patterns and texts", "why_tests_cant": "regex metacharacter injection must be excluded for all strings", "anchors": ["jsonmatcher/str_matchers.go:stringSearchRegexp", "jsonmatcher/str_matchers.go:getStringMatcher"]}
{"id": "C36", "title": "A string equal to the literal matches (refuted in general)", "statement": "f:\"s\" matches a document in which f is exactly the string s. Refuted: the literal \"(food)\" does not match the value (food), and \"\" does not match the empty string. Holds for ASCII literals that begin and end with a word character and contain no backslash.", "quantifier": "for all strings", "why_tests_cant": "depends on boundary characters", "anchors": ["jsonmatcher/str_matchers.go:stringSearchRegexp"]}
{"id": "C37", "title": "Type discipline of comparisons", "statement": "JSON booleans are matched only by boolean literals; null scalars by no value comparison; boolean literals match only JSON booleans of that value; objects by nothing but exists.", "quantifier": "for all literals and documents", "why_tests_cant": "all type combinations inside arrays", "anchors": ["jsonmatcher/json_values.go:getBoolVal", "jsonmatcher/json_values.go:getStringVal", "jsonmatcher/json_values.go:getNumberVal"]}
{"id": "C38", "title": "Match depends only on the referenced paths; member order is irrelevant", "statement": "Adding a member whose key is the first segment of no path in the query, or permuting the members of objects with distinct keys and the elements of arrays anywhere in the document, never changes the result.", "quantifier": "for all queries and documents", "why_tests_cant": "relates pairs of documents", "anchors": ["jsonmatcher/json_values.go:getValues", "jsonmatcher/json_values.go:scalarValues"]}
{"id": "C39", "title": "Match is a pure function of query and document", "statement": "The result of Match does not depend on earlier or concurrent calls; invalid JSON gives an error and changes nothing.", "quantifier": "for all histories", "why_tests_cant": "all call histories", "anchors": ["jsonmatcher/jsonmatcher.go:Match"]}
{"id": "C40", "title": "Root statistics count calls", "statement": "After any sequence of Match calls, TimesChecked of the root equals the number of calls on valid JSON and TimesMatched the number that returned true; NodeName is AND/OR/NOT or the printed comparison.", "quantifier": "for all histories", "why_tests_cant": "all call histories", "anchors": ["jsonmatcher/node_stats.go:mark", "jsonmatcher/nodes.go:stats", "jsonmatcher/jsonmatcher.go:Stats"]}
{"id": "C41", "title": "Concurrent Match calls are linearizable", "statement": "Under every interleaving of any number of concurrent Match calls each call returns the sequential answer and the final counters equal those of any sequential order.", "quantifier": "for all interleavings", "why_tests_cant": "schedules cannot be enumerated by tests", "anchors": ["jsonmatcher/node_stats.go:mark", "jsonmatcher/nodes.go:result"]}
{"id": "C42", "title": "A statistics snapshot never shows more matches than checks (refuted)", "statement": "Stats() taken while Match calls are running satisfies TimesMatched <= TimesChecked. The stored counters always satisfy it, but the snapshot reads checked before matched, so a schedule exists in which it is violated; with no Match in progress it holds.", "quantifier": "for all interleavings", "why_tests_cant": "needs a particular schedule", "anchors": ["jsonmatcher/node_stats.go:toStatsNode", "jsonmatcher/node_stats.go:mark"]}
{"id": "C43", "title": "Stats() describes the whole query tree (refuted)", "statement": "Stats() shows every part of the query with the number of documents that got to it (left to right, the second operand of AND only where the first holds, of OR only where it does not) and the number of those that satisfied it. The counters kept for the parts are exactly these numbers, but the code never fills Children, so Stats() is complete exactly for single comparisons.", "quantifier": "for all queries, all parts of them and all sequences of calls", "why_tests_cant": "all queries and unbounded histories", "anchors": ["jsonmatcher/nodes.go:stats", "jsonmatcher/node_stats.go:toStatsNode"]}
{"id": "C44", "title": "Sampler keys are exactly the key paths of sampled scalars", "statement": "After sampling any documents without error, Keys() is exactly the set of dotted paths, of at most maxDepth segments, that lead through objects and arrays (not arrays in arrays) to a scalar in some sampled document.", "quantifier": "for all document sequences", "why_tests_cant": "unbounded documents and histories", "anchors": ["sampler/sampler.go:sample", "sampler/sampler.go:Keys"]}
{"id": "C45", "title": "Negative depth means no limit (refuted)", "statement": "New(d) with d < 0 samples without a depth limit (documented). The code records nothing for every document.", "quantifier": "for all documents and negative depths", "why_tests_cant": "all documents", "anchors": ["sampler/sampler.go:New", "sampler/sampler.go:sample"]}
{"id": "C46", "title": "A rejected document does not disturb the sampler (refuted)", "statement": "After Sample returns an error the previously collected keys are still available and later calls work. The code drops all keys when the error is found inside the document, and the next document with a scalar panics, even after Reset; errors found by the outer bracket check leave the state untouched.", "quantifier": "for all histories", "why_tests_cant": "needs a history error-then-sample", "anchors": ["sampler/sampler.go:Sample", "sampler/sampler.go:Reset"]}
{"id": "C47", "title": "Sample never panics (refuted)", "statement": "Sample returns normally on every input. The code panics on the empty input and on a top-level array containing a scalar; it does not panic on objects while no error has occurred. Exactly, while no error has occurred: it panics iff there are no bytes, or the document is an array with a scalar element before which every element that is not an array is sampled without an error.", "quantifier": "for all inputs", "why_tests_cant": "crash freedom over all inputs", "anchors": ["sampler/sampler.go:Sample", "sampler/sampler.go:sample"]}
{"id": "C48", "title": "Threshold selects keys present in at least p percent of documents (refuted in general)", "statement": "KeysAtThreshold(p) returns a key iff it occurs in at least p percent of the sampled documents. Scalars are counted, not documents, so a key in an array can be over-counted; without arrays, repeated keys and dots in keys it holds, in binary64 arithmetic, for fewer than 2^46 documents.", "quantifier": "for all histories and p", "why_tests_cant": "unbounded histories", "anchors": ["sampler/sampler.go:KeysAtThreshold", "sampler/sampler.go:sample"]}
{"id": "C49", "title": "Reset and Scanned", "statement": "Scanned() equals the number of documents sampled without error since creation or Reset; after Reset with no earlier error the sampler is indistinguishable from a new one.", "quantifier": "for all histories", "why_tests_cant": "all histories", "anchors": ["sampler/sampler.go:Reset", "sampler/sampler.go:Scanned"]}
{"id": "C50", "title": "Sampled keys are queryable", "statement": "For an object document with distinct keys, every key the sampler reports from it, used as a query path, exists in that document (for keys made of characters legal in unquoted paths).", "quantifier": "for all documents", "why_tests_cant": "relates two components over all documents", "anchors": ["sampler/sampler.go:sample", "jsonmatcher/json_values.go:getValues"]}
{"id": "C51", "title": "The highlighted parts reassemble the query", "statement": "QueryPre + QueryHL + QueryPost = Query, and QueryHL is the token at the message position, when no truncation happens and the text before the token is ASCII. Exactly: without truncation QueryPre is the text before the token iff that text is ASCII.", "quantifier": "for all queries and positions", "why_tests_cant": "all positions", "anchors": ["parser/fmtmsg/formatter.go:QueryPre", "parser/fmtmsg/formatter.go:QueryHL", "parser/fmtmsg/formatter.go:QueryPost"]}
{"id": "C52", "title": "Terminal marker line is aligned", "statement": "In terminal output the carets stand exactly under the token that the position denotes, for single-line ASCII queries and no truncation; refuted for non-ASCII queries because offsets are bytes but the query is indexed by rune. Exactly: the carets are under the token iff the text before it is ASCII.", "quantifier": "for all queries and positions", "why_tests_cant": "all queries", "anchors": ["parser/fmtmsg/formatter.go:HLStrOffset", "parser/fmtmsg/formatter.go:terminalTmpl"]}
{"id": "C53", "title": "Truncation keeps the token in a window inside the query (refuted in general)", "statement": "With a maximum width w below the length of the query, the printed window is within the query, at most w wide and contains the token. Exactly: iff the token is shorter than w-1, or has w-1 or w characters and starts at least w characters before the end; otherwise the window runs past the end of the query or cuts the token.", "quantifier": "for all lengths, widths and positions", "why_tests_cant": "integer corner cases", "anchors": ["parser/fmtmsg/truncate.go:findCenterSubstring", "parser/fmtmsg/truncate.go:truncate"]}
{"id": "C54", "title": "The query graph mirrors the AST", "statement": "QueryGraph creates one node per AST node plus the start point, one edge into each AST node from its parent (start for the root), with pairwise distinct names, and labels AND/OR/NOT accordingly.", "quantifier": "for all queries", "why_tests_cant": "unbounded trees", "anchors": ["aqlgraph/graph.go:visitNodes", "aqlgraph/graph.go:namer"]}
{"id": "C55", "title": "Example list returns the recorded examples (refuted)", "statement": "ExampleList.Get returns the most recent (up to ten) examples. The code returns nothing until the tenth example has been added; from then on it returns exactly the last ten non-empty examples as a rotation.", "quantifier": "for all histories", "why_tests_cant": "needs histories shorter and longer than the ring", "anchors": ["jsonmatcher/field_stats.go:addExample", "jsonmatcher/field_stats.go:Get"]}
{"id": "C56", "title": "Field paths print unambiguously", "statement": "ast.FieldString maps different non-empty paths to different strings.", "quantifier": "for all paths", "why_tests_cant": "injectivity over all paths", "anchors": ["parser/ast/ast.go:FieldString"]}
{"id": "C57", "title": "Query messages are attached to the values they describe", "statement": "Each deprecation warning produced by NewMatcher for `~` corresponds to exactly one string or regex operand of a `~` comparison and carries its position; each exact-datetime warning to one full datetime operand of an equality; no other query produces them.", "quantifier": "for all queries", "why_tests_cant": "unbounded queries", "anchors": ["jsonmatcher/query_messages.go:messageVisitor"]}
{"id": "C58", "title": "Field statistics never panic (refuted)", "statement": "FieldStats.mark on statistics made by NewFieldStats does not panic, whatever values are marked. It holds for the first 999 samples. Exactly: a sequence of samples panics with a nil pointer iff a sample whose number is a multiple of 1000 has a string, number or object, because NewFieldStats puts the example lists into loop copies.", "quantifier": "for all sequences of samples", "why_tests_cant": "needs all values over long histories", "anchors": ["jsonmatcher/field_stats.go:NewFieldStats", "jsonmatcher/field_stats.go:mark"]}
{"id": "C59", "title": "From text to answer: a matcher answers with the meaning of its query text", "statement": "NewMatcher returns a matcher for some bytes exactly when they are the UTF-8 encoding of a sentence of the documented grammar whose comparisons obey the typing rules (given that the regexp library can parse the patterns it compiled a second time), an error otherwise; GetQuery returns that text; and on every document the matcher returns true iff the document satisfies the declarative meaning of the tree the text denotes (for fields with a named first segment), also after any number of other calls.", "quantifier": "for all byte strings and all JSON documents", "why_tests_cant": "the claim composes the lexer, the parser, validation, the builder and the matcher over two unbounded inputs; a test samples a few pairs", "anchors": ["jsonmatcher/jsonmatcher.go:NewMatcher", "jsonmatcher/jsonmatcher.go:Match", "jsonmatcher/jsonmatcher.go:GetQuery", "parser/parser.go:ParseQuery"]}
{"id": "C60", "title": "White space, redundant parentheses, quoting of names and * segments do not change the outcome", "statement": "Two texts whose tokens denote the same tree get the same outcome from NewMatcher: the same error text, or matchers that answer and count alike on every document (panics included) and carry the same messages up to positions.", "quantifier": "for all pairs of texts whose token sequences have equal trees, and all documents", "why_tests_cant": "the number of layouts of a query is unbounded and the claim relates two runs of the whole pipeline", "anchors": ["internal/grammar/aql.peg", "jsonmatcher/jsonmatcher.go:NewMatcher", "jsonmatcher/build_matcher.go:build"]}
{"id": "C61", "title": "Validation errors point at the text to blame", "statement": "A syntactically correct query that breaks a typing rule is rejected with an error whose line, column, offset and length are exactly those of the offending text: the first operand of a wrong type, the whole comparison for a wrong number of operands, the first repeated or contradicting value, or the second bound of an unordered between, in the first comparison from the left that breaks a rule.", "quantifier": "for all queries that parse and break a typing rule, for all visitors", "why_tests_cant": "positions depend on everything before the token (multi-byte characters, newlines), and which rule is reported first depends on all operands", "anchors": ["parser/validators.go:opValidator", "parser/validators.go:checkValues", "parser/validators.go:checkArity", "parser/validators.go:checkRVals", "parser/validators.go:checkBetween", "parser/parser.go:ParseQueryReader"]}
{"id": "C62", "title": "Query messages point at values of the query text", "statement": "Every message returned by NewMatcher is a hint or a warning and its position is exactly the position of the text of a value of the query.", "quantifier": "for all byte strings for which NewMatcher returns a matcher, and every message", "why_tests_cant": "messages come from several branches per operand, over unbounded queries", "anchors": ["jsonmatcher/query_messages.go:messageVisitor", "jsonmatcher/jsonmatcher.go:NewMatcher"]}
{"id": "C63", "title": "Query texts compose", "statement": "If two texts s and t get matchers then so do `(s) AND (t)`, `(s) OR (t)` and `NOT (s)`, and on every document on which both answer the compound answers with the conjunction, disjunction and negation.", "quantifier": "for all pairs of query texts and all documents", "why_tests_cant": "programs that build queries by concatenation rely on this for every pair of texts", "anchors": ["internal/grammar/aql.peg:OrClause", "internal/grammar/aql.peg:AndClause", "internal/grammar/aql.peg:NotClause", "jsonmatcher/nodes.go"]}
{"id": "C64", "title": "Grammar errors mark text and are never recovered panics", "statement": "No query is rejected because an action of the grammar panicked (the run time recovers panics and would report them as errors). The error of a rejected query has an offset at some point of the text and a length of at least one; that many characters follow the offset, except for the three errors that may point at the end of the text (unterminated string, unterminated regular expression, no match), which have length one.", "quantifier": "for all byte strings", "why_tests_cant": "the type assertions and indexing in the actions depend on which sub-expressions matched, for unboundedly many texts", "anchors": ["internal/grammar/parser_gen.go:parser.parse", "internal/grammar/aql.peg:GetParseError", "internal/grammar/aql.peg:Field", "internal/grammar/aql.peg:ValueList"]}
{"id": "C65", "title": "The browser front end highlights the text it talks about", "statement": "For every input the page gets either a tree and messages that are no errors, or no tree and exactly one error. Every span is non-empty and inside the input. Spans of warnings, hints and typing errors are those of a comparison or of a value of the query, so that the slice of the JavaScript string that the page highlights is the text of that piece.", "quantifier": "for all inputs and all messages", "why_tests_cant": "spans are byte offsets with lengths in characters while the page slices UTF-16 strings; only some texts show the difference", "anchors": ["wasm/aqlparse/main.go:pWrap", "wasm/aqlparse/main.go:errConvert", "wasm/aqlparse/main.go:msgConvert", "wasm/aqlparse/warnings.go:warningVisitor"]}
{"id": "C66", "title": "Addresses in a text are found (refuted in general)", "statement": "A network literal matches a text in which an address (or block) of the literal's range occurs. This holds for every address or block that stands on its own in the text: not directly preceded by a digit, dot or slash, not directly followed by a digit or slash, whatever else the text contains. It is false for arbitrary occurrences: a:10.0.0.1 does not match \"1.10.0.0.1\".", "quantifier": "for all texts, all positions in the text, all addresses and blocks, all network literals", "why_tests_cant": "the leftmost-longest, non-overlapping extraction interacts with everything before the address; only an induction over the extracted parts covers all surroundings", "anchors": ["jsonmatcher/expr_net.go:getNets", "jsonmatcher/expr_net.go:exprNet.matches"]}
{"id": "C67", "title": "Graph labels show the comparison (refuted in general)", "statement": "The HTML label drawn for a comparison is well formed and its cells show exactly the field, the operator and the type and text of every value. This holds when neither the field nor a value contains < or &. It is false otherwise, because only the operator is escaped: the label of a:\"<b>\" is malformed and that of a:\"&lt;\" shows another value.", "quantifier": "for all fields, operators and lists of values", "why_tests_cant": "unbounded texts and numbers of values; the property is a round trip through an HTML reader", "anchors": ["aqlgraph/node_html.go:labelTmpl", "aqlgraph/graph.go:visitNodes"]}
{"id": "C68", "title": "The name of a comparison in the statistics is a query for it (refuted in general)", "statement": "The text by which the statistics name a comparison (FriendlyString), parsed as a query, is the same comparison: same operator, path and values. This holds exactly when the path is not empty, every path segment is a bare name or contains a space, dot or quote, strings contain no control characters without a short escape (and no unprintable characters beyond the basic plane), regular expressions contain no escaped slash, and floats are not whole numbers. It is false otherwise: \"a:b\":1, a:/x\\/y/ and a:\"\\u0007\" have names that do not parse, and a:2.0 has the name of another comparison.", "quantifier": "for all operators, paths and lists of values", "why_tests_cant": "a round trip through printer and parser over all names, strings and values", "anchors": ["parser/ast/ast.go:ExprNode.FriendlyString", "parser/ast/ast.go:FieldString", "jsonmatcher/build_matcher.go:build"]}
{"id": "C69", "title": "The trees of queries are exactly the expressible ones", "statement": "A tree is the tree of some query (up to positions) exactly when it has no sub-document node, no path segment *, values exactly for the operators that take them, and each value is denoted by a literal. In particular every string and every path without * can be written, and no query reaches the code for sub-documents.", "quantifier": "for all trees, and all byte strings accepted by the grammar", "why_tests_cant": "both directions range over unbounded trees and texts", "anchors": ["internal/grammar/aql.peg", "parser/ast/ast.go:Node"]}
{"id": "C70", "title": "An equality set is short for a disjunction, as texts", "statement": "If field:(v1,...,vn) gets a matcher then field:v1 OR ... OR field:vn gets one too and both give the same answer on every document (README, Equality set).", "quantifier": "for all paths, all lists of at least two literals, all documents", "why_tests_cant": "unbounded lists, all literals, all documents; goes through parser, validation, builder and matcher for two different texts", "anchors": ["README.md", "jsonmatcher/expr_eq.go:exprEQ", "internal/grammar/aql.peg"]}
{"id": "C71", "title": "A range is short for the conjunction of its bounds (refuted in general)", "statement": "If field:><(a,b) with two numbers or two datetimes gets a matcher then field:>=a AND field:<=b gets one too, matches every document the range matches, and gives the same answer when the field has at most one scalar. With several scalars the answers differ: {\"a\":[1,9]} matches a:>=3 AND a:<=7 but not a:><(3,7). The ends belong to the range, contrary to the wording of the README.", "quantifier": "for all paths, all pairs of literals of one kind, all documents", "why_tests_cant": "all literals and documents, through parser, validation, builder and matcher for two texts", "anchors": ["README.md", "jsonmatcher/expr_between.go:matches"]}
{"id": "C72", "title": "Sampler and matcher agree on what is a value", "statement": "From object documents with distinct member names the sampler reports exactly the paths, up to the depth limit, under which the matcher finds a scalar in some of the documents. Hence a comparison with a value that matches a sampled document is on a reported path.", "quantifier": "for all lists of documents, all depth limits, all comparisons", "why_tests_cant": "two independent traversals (jsonparser callbacks and path resolution) compared on all documents", "anchors": ["sampler/sampler.go:sample", "jsonmatcher/json_values.go:getValues"]}
{"id": "C73", "title": "A sampled key can be typed into a query (refuted in general)", "statement": "A key that the sampler reports, followed by :exists, is a query that matches one of the sampled documents. This holds when every member name on the way is a bare name of the query language or has a space and no quote, backslash or control character. It is false otherwise: {\"a.b\":null} gives a key that looks elsewhere, {\"a:b\":null} and {\"\":null} give no query, and {\"*\":null} gives a query that panics.", "quantifier": "for all lists of documents and all reported keys", "why_tests_cant": "goes from document through sampler, key text, parser and builder back to the document", "anchors": ["sampler/sampler.go:sample", "internal/grammar/aql.peg", "jsonmatcher/jsonmatcher.go:Match"]}
{"id": "C74", "title": "Sample accepts every JSON object or array (refuted)", "statement": "A document is judged by its content. This holds for bytes that begin and end with the same kind of bracket; all other bytes are rejected with an error that names the defect, quotes at most the first 100 bytes and leaves the sampler unchanged. White space before or after a document, which JSON allows, therefore makes Sample reject it.", "quantifier": "for all byte strings, all states of the sampler", "why_tests_cant": "all byte strings", "anchors": ["sampler/sampler.go:Sample"]}
{"id": "C75", "title": "The worked examples of the README answer as printed (refuted)", "statement": "Every query that README.md prints with a document and an answer gets that answer. Equality with a string is presented as a search for the exact value: a query path:\"value\" matches a document whose value under the path is that string. For a value of plain ASCII characters this holds exactly when the value begins and ends with a letter, digit or underscore; so the example level1.level2.level3:\"here!\" of the section Paths, printed as true, is answered with false. The other examples, and the program of the section Usage, answer as printed.", "quantifier": "for all values, paths and documents with one value under the path; all library environments", "why_tests_cant": "all values; the example that fails is in the documentation and in no test", "anchors": ["README.md", "jsonmatcher/str_matchers.go:stringSearchRegexp"]}
{"id": "C76", "title": "Printed statistics are JSON and determine the statistics", "statement": "The statistics text that aqltest prints is one JSON object; read back by a JSON reader it gives the name of the root, how often it was checked and how often it matched, whatever characters the name has (quotes, angle brackets, line breaks). Different statistics have different texts.", "quantifier": "for all matchers and all statistics", "why_tests_cant": "all names, i.e. all queries", "anchors": ["cmd/aqltest/main.go:main", "jsonmatcher/node_stats.go"]}
{"id": "C77", "title": "The printed syntax tree shows the query (refuted)", "statement": "Two queries that the playground shows with the same tree are the same query. False: the JSON of a tree carries neither AND versus OR nor the compared values. Exactly: two trees are printed alike if and only if they differ only in AND versus OR and in values (not in their number). The tree is one JSON text that reads back as itself.", "quantifier": "for all pairs of trees", "why_tests_cant": "all pairs of trees; the loss is silent", "anchors": ["wasm/aqlparse/main.go:parseAQL", "parser/ast/ast.go", "parser/ast/values.go"]}
{"id": "C78", "title": "What aqltest prints and how it ends", "statement": "Every run of aqltest ends: with exit code 0, the answer and JSON statistics on standard output; or with exit code 1, nothing on standard output and at least one line in the log; or with a panic, which is then a panic of Match. For a valid query on a document the answer is the meaning of the query and the statistics count one check. A rejected query is printed with carets at the error's position; no printed message is cut short by an error of the printer.", "quantifier": "for all argument lists, files, queries and documents", "why_tests_cant": "all queries, documents and argument lists", "anchors": ["cmd/aqltest/main.go:main", "parser/fmtmsg/formatter.go"]}
{"id": "C79", "title": "A query is never taken for a file name", "statement": "No text of the query language ends with .aql, so aqltest, which reads its argument as a file name exactly when it ends with .aql, never misreads a query.", "quantifier": "for all queries of the language", "why_tests_cant": "all query texts", "anchors": ["cmd/aqltest/main.go:24"]}
{"id": "C80", "title": "aqlgraph writes exactly the requested file", "statement": "For a valid query aqlgraph writes the graph of its tree to the named file, as SVG or DOT by the ending of the name in either case, or as SVG to query_graph.svg without a name. In all other cases (no query, rejected query, other ending, file not writable) it writes nothing, says why and exits with code 1. It never panics.", "quantifier": "for all argument lists", "why_tests_cant": "all argument lists and file names", "anchors": ["cmd/aqlgraph/main.go:main"]}
{"id": "C81", "title": "The demo page shows the tree of every accepted text (refuted)", "statement": "For any text typed into the demo page, the page shows the tree of the text or a visible list of messages, never both. A shown tree is the tree of the text as a query. A text that is no query gets exactly one message, an error, and an error is always the only message. Highlights lie inside the text, except for strings and patterns that do not end; the empty text has none. That an accepted query always has its tree shown is false: a warning or hint hides it. Exactly: a tree is shown iff the text is accepted without any message.", "quantifier": "for all texts and all library behaviours", "why_tests_cant": "quantifies over all texts", "anchors": ["wasm/aqlparse/index.html:52-93", "wasm/aqlparse/main.go:pWrap"]}
{"id": "C82", "title": "Messages appear on the page as written (refuted in general)", "statement": "A message inserted by newMsg is read by the browser as exactly its text. False in general: the text is inserted as markup, so markup in a query becomes markup of the page, and the fixed warning about ~ with patterns is cut off. Exactly: it holds iff the message contains no < that begins markup, no & that begins a character reference, no NUL and no carriage return.", "quantifier": "for all messages, of all types", "why_tests_cant": "quantifies over all texts", "anchors": ["wasm/aqlparse/index.html:47-49,82", "wasm/aqlparse/warnings.go:22"]}
{"id": "C83", "title": "The demo server opens only the files of the demo", "statement": "Whatever path is requested, including paths with dots and doubled slashes, the only files opened are index.html, wasm_exec.js, hwt.css, style.css and aqlparse.wasm of the given directory. Each of them is opened exactly for the paths that come down to its name (index.html: only for /).", "quantifier": "for all request paths, directories and working directories", "why_tests_cant": "quantifies over all request paths", "anchors": ["wasm/aqlparse/server/main.go"]}
{"id": "C84", "title": "The title of the query graph shows the query (refuted in general)", "statement": "The label of the graph, which is the query text, is shown by graphviz as that text. False in general: backslashes are escapes. Exactly: it holds iff the query contains no backslash, no line break and no & that begins a character reference.", "quantifier": "for all queries", "why_tests_cant": "quantifies over all texts", "anchors": ["aqlgraph/graph.go:74"]}
{"id": "C85", "title": "The messages of syntax errors are true of the text they mark", "statement": "Every rejection by the grammar marks a place of the text (line and column as in C06), and its message and length are true of the text there: an integer that does not fit 64 bits, a number too large for a double, an address or day that does not exist, a pattern that does not compile, a string with half a character, a string or pattern that neither ends nor goes on there, a single value in parentheses, a closing parenthesis or word where a value should be (with a suggestion that denotes the word if its characters can be written), or a list of expectations, ordered and without repetition, none of which is met there. The list contains exactly the tests that failed at the furthest place where one failed.", "quantifier": "for all query texts and all environments", "why_tests_cant": "quantifies over all texts and all kinds of errors; a test sees the message for one text", "anchors": ["internal/grammar/aql.peg:36-58", "internal/grammar/aql.peg:250-500", "internal/grammar/parser_gen.go:2850-2867", "internal/grammar/parser_gen.go:3022-3057"]}
{"id": "C86", "title": "The expectations of a syntax error are complete", "statement": "If a text is rejected for lack of a match at the end of its beginning p, then every query that begins with p goes on with something that the message lists, or ends there if the message lists the end; the rest of the rejected text meets nothing that is listed. So the marked character is wrong: no query begins with the text up to and including it, unless it begins a keyword or operator of several characters that is listed and that the rejected text does not contain there whole.", "quantifier": "for all rejected texts, all queries with the same beginning and all environments", "why_tests_cant": "quantifies over all ways to go on from the place of an error; a test can only check that some listed expectation is there", "anchors": ["internal/grammar/parser_gen.go:2850-2867", "internal/grammar/parser_gen.go:3022-3057", "internal/grammar/parser_gen.go:191-1880", "internal/grammar/aql.peg:36-58"]}
{"id": "C87", "title": "Errors of visitors are returned", "statement": "A well-typed query goes through the visitors given to ParseQuery one after the other. The first error a visitor returns ends this: an error of the parser is returned as it is, any other error as 'validation failure: ' with its text and without position, and no later visitor is run. Without error the tree is returned unchanged.", "quantifier": "for all queries, all lists of (also stateful) visitors and all environments", "why_tests_cant": "quantifies over all visitor programs and all trees", "anchors": ["parser/parser.go:45-62", "parser/parser.go:83-88", "parser/visitors.go:25-61"]}
{"id": "C88", "title": "The messages of a matcher are exactly those its operands call for", "statement": "The whole list of messages of a matcher is determined operand by operand, from left to right, each message with the position of its operand: the ~ deprecations, the warning on exact datetimes, and for regular expressions the warning on case-insensitive patterns with characters outside ASCII, the hint on a leading or trailing '.*' in the text, on an outer group, on a plain alternation, and on leading and trailing '.*' among the parts of the pattern. Nothing else is said and nothing is left out.", "quantifier": "for all queries that compile, all parse trees of their patterns and all environments", "why_tests_cant": "quantifies over all queries and all shapes of parsed patterns", "anchors": ["jsonmatcher/query_messages.go:12-91"]}
{"id": "C89", "title": "What is said about comparisons that break the typing rules", "statement": "A query that parses but breaks a typing rule is rejected with exactly one error, which is about the first offending comparison in reading order. Its text and position are fixed by the operator and the operands: which kind of operand the operator needs, how many, which operand is a duplicate or conflicts with an earlier one (with its number and the number of operands), that a second datetime is needed, or that the second bound must be greater. There is something to say about a comparison exactly when it breaks a typing rule.", "quantifier": "for all queries, all comparisons with any number of operands and all environments", "why_tests_cant": "operand lists of any length and all combinations of several violations in one comparison", "anchors": ["parser/validators.go:11-178", "parser/parser.go:45-62"]}
{"id": "C90", "title": "What comes before a syntax error can be completed", "statement": "If a text is rejected for lack of a match, then what comes before the place of the error is the beginning of some query, and the message lists something with which such a query goes on. (As first written this is too strong: it fails within something that has the shape of a time or a network but is none, such as a:2021-13, and holds everywhere else.)", "quantifier": "for all rejected texts and all environments", "why_tests_cant": "the completion has to be found for every text, whatever its length, nesting and the kind of place where it breaks off", "anchors": ["internal/grammar/parser_gen.go:2850-2867", "internal/grammar/parser_gen.go:3022-3057", "internal/grammar/parser_gen.go:191-1880", "internal/grammar/aql.peg:36-500"]}
{"id": "C91", "title": "What comes before other errors can be completed, and suggested values fit", "statement": "If a text is rejected with another message than a missing match (an unterminated or invalid string or regular expression, an invalid number, time or network, a misplaced parenthesis, an unknown word), then what comes before the place of the error is the beginning of some query. Where the message suggests a text in place of an unknown word, the suggestion is a literal that denotes this word exactly if all characters of the word can be written in the language, and then it can be typed in place of the word and completed to a query. (As first written the first part is too strong: it fails within strings and regular expressions that cannot be completed, such as a:\"\\ud800, and holds everywhere else.)", "quantifier": "for all rejected texts and all environments", "why_tests_cant": "the completion has to be found for every text, whatever its length, nesting and the kind of error; the suggestion is made for words of any length over all characters", "anchors": ["internal/grammar/aql.peg:36-58", "internal/grammar/aql.peg:296-320", "internal/grammar/aql.peg:487-500", "internal/grammar/parser_gen.go:191-1880"]}
{"id": "C92", "title": "The report about the values of a field says what was marked", "statement": "However many samples are marked, MarshalJson of the statistics gives a JSON text that says: the number of samples, what was expected, and for each kind of value that occurred (in arrays or outside), in alphabetical order, how many values of this kind there were and the last ten examples out of every thousandth sample. (As first written this is too strong: the statistics made by NewFieldStats have no example lists, so MarshalJson panics as soon as one value was marked; it holds for statistics with example lists. Matches are never counted: times_matched is 0.)", "quantifier": "for all sequences of samples, all values, all expected types and all environments", "why_tests_cant": "the counts and the ring of examples depend on the whole history of samples, which is unbounded; the text has to be read back for all keys and examples", "anchors": ["jsonmatcher/field_stats.go:61-97", "jsonmatcher/field_stats.go:101-170", "jsonmatcher/field_stats.go:194-205"]}
{"id": "C93", "title": "Texts of examples", "statement": "The example kept for a string is its meaning (with texts of their own for the empty string and for a string that cannot be unescaped), for a number its spelling, and for an object the list of its keys, at most ten. (As first written the part about objects is false: eleven keys are named, and the keys are unescaped twice, so that a key with a backslash is called invalid or changed.)", "quantifier": "for all values and all unescapings", "why_tests_cant": "objects have any number of keys of any length", "anchors": ["jsonmatcher/field_stats.go:124-168"]}
{"id": "C94", "title": "Truth of values", "statement": "A string is falsy exactly if it is empty, 0 or false; a number exactly if it is zero; null is falsy, booleans are themselves, arrays and objects are neither. (As first written this is too strong: FALSE and numbers below half of the smallest double are falsy as well; the exact conditions are proved.)", "quantifier": "for all values and all environments", "why_tests_cant": "infinitely many strings, and numbers of any size and precision", "anchors": ["jsonmatcher/json_values.go:172-213"]}
{"id": "C95", "title": "List values of a field", "statement": "The list values of a field are its arrays in their order, and the scalars that comparisons look at are the scalars of the list values together with the values that are neither arrays nor objects.", "quantifier": "for all lists of values", "why_tests_cant": "lists of any length and nesting", "anchors": ["jsonmatcher/json_values.go:30-63"]}
{"id": "C96", "title": "Expectations can be met", "statement": "When a text is rejected because nothing matches at some place, each expectation that the message lists can be met there: some query goes on as expected, or ends there if the end of the text is expected; and every query that begins with the text before the place meets one of the expectations. (As first written this is false within things that have the shape of a time or a network: after a:1.2.3.30 another digit is listed.)", "quantifier": "for all texts and all environments", "why_tests_cant": "infinitely many texts, and each listed expectation needs a query that meets it", "anchors": ["internal/grammar/parser_gen.go:2850-2867", "internal/grammar/parser_gen.go:3022-3057", "internal/grammar/parser_gen.go:191-1880", "internal/grammar/aql.peg:36-500"]}
{"id": "C97", "title": "Printed trees can be told apart", "statement": "If the trees of two queries are printed alike by String, they are the same tree up to positions: the same connectives around comparisons with the same operator, path and values (a number may be written with or without a fraction), and they build the same matcher. (As first written this is false: three patterns are printed like two of which one contains slashes, and the path * is printed like the path of the empty name.)", "quantifier": "for all pairs of queries and all environments", "why_tests_cant": "pairs of queries of any size and depth", "anchors": ["parser/ast/ast.go:34-103", "parser/ast/ast.go:474-487"]}
{"id": "C98", "title": "Texts of messages and errors", "statement": "The printed text of a message shows its type, its text and, if known, its line, column and offset: two messages are printed alike exactly if these agree. The same holds of the text of an error. Every message of a matcher is printed with the place where a value of the query begins. As JSON a message is an object from which it can be read back.", "quantifier": "for all messages, errors and queries", "why_tests_cant": "arbitrary texts, which may look like places themselves, and arbitrary numbers", "anchors": ["parser/message.go:13-81", "internal/grammar/aql.peg:62-65", "parser/visitors.go:101-173"]}
{"id": "C99", "title": "Drawn queries can be told apart", "statement": "If the graphs of two queries differ only in the names of nodes and edges, then the queries have the same tree: the same connectives around comparisons with the same operator, path and values, the left operand being the one at the heavy edge; and they build the same matcher. In general the drawings agree exactly if the trees look alike: same connectives, operators, joined paths, and types and texts of values. (Fails for names with dots and for paths of nothing but `*`.)", "quantifier": "for all pairs of queries", "why_tests_cant": "all pairs of trees of any depth, and all renamings of nodes", "anchors": ["aqlgraph/graph.go:28-189", "aqlgraph/node_html.go:5-37"]}
{"id": "C100", "title": "Texts of numbers are the shortest that read back", "statement": "The text of a number of a document (which strings, patterns, networks and times are compared with) and of a float of a query is the decimal with the coarsest last place that is read as the same double, of several the one closest to it, written without an exponent and without needless zeros; zero is 0, or -0 if it was written with a minus sign. No decimal that is read as the number has fewer digits, and there are never more than 17. The text read again is the same double with the same text, and two numbers have the same text exactly if they are the same double (with the same sign, if zero).", "quantifier": "for all decimal texts of numbers in the range of float64", "why_tests_cant": "2^64 doubles and infinitely many decimal texts, with ties and changes of spacing at powers of two", "anchors": ["jsonmatcher/json_values.go:115-132", "parser/ast/ast.go:240-249"]}
{"id": "C101", "title": "The spelling of a document does not matter (refuted for strings)", "statement": "Documents that differ, anywhere, only in the spelling of numbers (same double, same sign if zero), of member names and of strings (same text after unescaping) get the same outcome from every query, panics included. This holds for numbers and names, and for strings that are the same number as they are spelled or none. It is false for others: {\"a\":\"1\"} matches a:1, {\"a\":\"\\u0031\"} does not, because numbers in strings are read from the raw bytes. Exactly: two spellings of a string are answered alike by all queries iff they are the same number as they are spelled, or both none.", "quantifier": "for all documents, all spellings of their parts, all queries and all behaviours of the libraries", "why_tests_cant": "unboundedly many documents, nestings and spellings; the claim is about all queries at once", "anchors": ["jsonmatcher/json_values.go:23-53", "jsonmatcher/json_values.go:84-170", "jsonmatcher/expr_float.go:15-49"]}
{"id": "C102", "title": "More members and elements: positive queries keep matching (refuted in general)", "statement": "A query that matches a document still matches it after members are added at the ends of objects and elements are added to arrays, anywhere. This holds for queries without null in which every comparison stands under an even number of NOTs; with an odd number everywhere, it holds in the other direction. It is false with one NOT, with null, and for members added before others of the same name.", "quantifier": "for all queries, documents and additions at any depth", "why_tests_cant": "unboundedly many documents, additions and queries", "anchors": ["jsonmatcher/json_values.go:84-112", "jsonmatcher/nodes.go"]}
{"id": "C103", "title": "Documents under a name (refuted for arrays)", "statement": "On a document whose member k is an object, the query with `k.` before every path gives the outcome that the query gives on that object; it compiles if the query does. If member k is an array, it matches exactly if the query matches some element: this holds for disjunctions of comparisons other than null, in one direction for queries with an even number of NOTs over every comparison, and is false for AND, NOT and null. `k.path:null` matches exactly if some element has something at path and all that is there is null. The sampler reports, one level deeper, the same keys with the name and a dot before them.", "quantifier": "for all queries, documents and names", "why_tests_cant": "relates two queries on two documents, for all of them", "anchors": ["jsonmatcher/json_values.go:84-112", "jsonmatcher/nodes.go", "sampler/sampler.go:75-122"]}
{"id": "C104", "title": "Names do not matter", "statement": "If all names of a query and of a document are replaced, different names by different names, the outcome stays the same, and the query still compiles. (A replacement that makes two names equal can change it.)", "quantifier": "for all queries, documents and injective renamings", "why_tests_cant": "all renamings of all documents and queries", "anchors": ["jsonmatcher/json_values.go:84-112"]}
{"id": "C105", "title": "Comparisons do not exclude each other (refuted for mixed signs)", "statement": "A query in which every comparison stands under an even number of NOTs and none is `null` matches some object exactly if it holds when each comparison counts as true if some object of its own matches it; so `a:1 AND a:2` is no contradiction. The empty object matches no such query and every query all of whose comparisons stand under an odd number of NOTs. For queries of mixed signs it is false: `a:exists AND !a:exists`.", "quantifier": "for all queries (any number of comparisons) and all documents", "why_tests_cant": "says that no document at all matches, or constructs one for every query", "anchors": ["jsonmatcher/nodes.go", "jsonmatcher/json_values.go:84-112"]}
{"id": "C106", "title": "Which queries match anything", "statement": "Comparisons with `exists`, `null`, numbers, booleans, networks and strings match some object; `<` and `>` too unless the literal is the least or greatest double and nothing is read as an infinity; patterns, times and strings outside ASCII exactly if the library finds them in some text or recognises some text as a time in the range in 64 bits. Of a query of even sign without `null` this decides whether any object matches. No query of AND, OR and comparisons with literals of the first kinds is a contradiction. A range of days that is accepted and that nothing can match: `a:><(2200-01-01,2300-01-01)`.", "quantifier": "for all queries and all documents", "why_tests_cant": "says that no document at all matches, or constructs one for every query", "anchors": ["jsonmatcher/nodes.go", "jsonmatcher/json_values.go:84-112"]}
{"id": "C107", "title": "Comparisons exclude each other only within a field, or through a field that is missing or null", "statement": "A query with any mixture of AND, OR, NOT, exists and null matches some object exactly if its comparisons can be taken to hold or fail so that the query holds and, field by field: every comparison of values that holds has a scalar that no failing comparison of the same field holds of; no field at or above one that a comparison holds of is missing; of a null field and what is below it nothing holds but that it is null and exists. So `a:null AND a.b:1` and `a:1 AND !a:<5` are contradictions and `a:1 AND !a:>5 AND !b.c:exists AND b:exists` is none.", "quantifier": "for all queries (any number and nesting of comparisons), all documents", "why_tests_cant": "says that no document at all matches, or constructs one for every consistent choice", "anchors": ["jsonmatcher/nodes.go", "jsonmatcher/json_values.go:84-112"]}
{"id": "C108", "title": "When one query is narrower than another", "statement": "Every object that matches the first query matches the second exactly if no consistent choice (C107) of which comparisons hold makes the first hold and the second fail; likewise for queries that match every object. Queries that compare different fields, neither asking for existence or null of a field the other looks below, are independent: any two answers they can give, they can give together; so neither is narrower than the other unless the first matches nothing or the second everything.", "quantifier": "for all pairs of queries and all documents", "why_tests_cant": "quantifies over all pairs of queries and all documents", "anchors": ["jsonmatcher/nodes.go", "jsonmatcher/json_values.go:84-112"]}
{"id": "C109", "title": "A sampler after a recovered panic (refuted for thresholds)", "statement": "A caller that recovers from a panic of Sample has a sampler as if only the part of the document before the first scalar element of the document itself had been sampled, except that this part is not counted as a document. After any sequence of Sample and Reset, whether the calls returned, failed or panicked, Scanned is the number of calls since the last Reset that returned no error; the keys are exactly those of the documents and of the seen parts since the last Reset, or none if a document ever led to an error. So the counts do not belong together: after `[{\"a\":1},1]` the key is at every threshold although nothing was scanned.", "quantifier": "for all sequences of calls and all documents", "why_tests_cant": "all sequences of calls with panics among them", "anchors": ["sampler/sampler.go:40-122", "sampler/sampler.go:132-153"]}
{"id": "C110", "title": "What wildcards add to a string literal (refuted for `*x*` in general)", "statement": "For ASCII literals, up to the case of letters: replacing a character by `?`, `?` by `*`, or putting in `*` never loses a match; `**` is `*` and `?*` is `*?`. `*` alone, and the empty literal, match exactly the texts with a letter, digit or underscore; `?` alone exactly those with a word of one character or two words separated by one. `*x*` matches exactly the texts that contain an instance of x anywhere if x begins and ends with a word character, and not otherwise: `*C#*` does not match `C#`.", "quantifier": "for all ASCII literals and all documents", "why_tests_cant": "quantifies over all pairs of patterns related by widening and all texts", "anchors": ["jsonmatcher/str_matchers.go", "README.md"]}
{"id": "C111", "title": "Parentheses are never needed", "statement": "Every accepted query has an equivalent text without parentheses other than those of ranges: a disjunction of conjunctions of comparisons with at most one literal, some of them negated. The text is accepted, and both matchers give the same answer on every document. Without ranges and without parentheses in names and literals the text has none at all, so it parses in cubic time although the original may not (C08).", "quantifier": "for all accepted queries and all documents", "why_tests_cant": "quantifies over all queries of any nesting and over all documents", "anchors": ["internal/grammar/aql.peg", "jsonmatcher/nodes.go"]}
{"id": "C112", "title": "Matching reads at most query size times document size", "statement": "Once a query is compiled, `Match` reads of a document at most four times the length of the query times the size of the document (characters, values, members and elements), counting what the JSON library skips: the values a path leads to are separate parts of the document, however many arrays lie on the way. A counting version of the matcher with the same answers carries the count. On objects the count is exact: every node the statistics count as checked counts once; a comparison reads, name by name, the members up to the name in all objects that the names before it lead to and the arrays on the way, then the values until a test passes. A bound by the sum of the sizes is impossible: a path of n names in n nested objects costs the square.", "quantifier": "for all accepted queries and all documents that are not arrays (for arrays: all paths without subscripts)", "why_tests_cant": "quantifies over all queries and all documents; timing tests see single sizes only", "anchors": ["jsonmatcher/json_values.go", "jsonmatcher/nodes.go"]}
{"id": "C113", "title": "What sampling reads and keeps", "statement": "One call of `Sample` reads the document at most twice for every level of names that maxDepth allows, whatever the document is, and without such a limit n objects inside each other cost n squared. A call that succeeds reads exactly the objects and arrays at most maxDepth names deep, each once with all that is in it, and writes exactly the paths to the scalars at most as deep (arrays that are elements of arrays are passed over). The keys it adds have at most as many characters as the square of the size of the document. No linear bound holds for them, however small maxDepth is (from 2 on): a long name over many short ones is repeated in every key.", "quantifier": "for all documents, valid or not, all samplers and all depths", "why_tests_cant": "quantifies over all documents and depths; the growth is a statement about all sizes", "anchors": ["sampler/sampler.go"]}
{"id": "C114", "title": "What the page says about an accepted query, and whether it is true", "statement": "The page gets a tree for exactly the queries that are well-formed and obey the typing rules. The messages that come with it are exactly those the operands call for, operand by operand from left to right: for every datetime compared with ':' the warning that the time is matched exactly, and for patterns the warning on ':~' at the comparison and the hints of the matcher. What the messages say holds of the matcher, and what they recommend is accepted.", "quantifier": "for all inputs, all parse trees of patterns and all environments", "why_tests_cant": "quantifies over all queries and all shapes of parsed patterns, and relates two front ends that are never compiled together", "anchors": ["wasm/aqlparse/warnings.go:13-61", "wasm/aqlparse/main.go:66-86", "jsonmatcher/query_messages.go:12-64"]}
{"id": "C115", "title": "Cost of parsing depends on how deeply parentheses are nested", "statement": "An accepted query costs the parser a number of evaluations that is at most cubic in its length times four to the depth of the parentheses around its clauses, however many parentheses there are side by side. Every accepted query has such a depth, at most the number of its parentheses; in a query without quotes and slashes it is at most the number of parentheses open at once. In that form the bound holds of every text without quotes and slashes, whether it is accepted or not. No factor smaller than four per level will do.", "quantifier": "for all accepted queries and all texts without quotes and slashes, all depths, all environments", "why_tests_cant": "a bound for texts of every length and depth; runs only time particular queries", "anchors": ["internal/grammar/aql.peg:OrClause", "internal/grammar/aql.peg:AndClause", "internal/grammar/aql.peg:Comparison", "internal/grammar/parser_gen.go:parseExpr"]}
{"id": "C116", "title": "What the option MaxExpressions does", "statement": "Without memoization, a parser that is given a maximum number of expressions does exactly what a parser without one does, as long as the query takes no more evaluations than the maximum; otherwise it stops after exactly that many evaluations with the error for it, and never with a tree. 0 means no maximum. From the length of a query and the depth of its parentheses a maximum can be computed that never turns an accepted query down; from the length alone no polynomial maximum is safe.", "quantifier": "for all inputs, all maxima that fit in 64 bits, all environments", "why_tests_cant": "quantifies over all inputs and all maxima, and compares two runs step by step", "anchors": ["internal/grammar/parser_gen.go:2274-2280", "internal/grammar/parser_gen.go:2655-2657", "internal/grammar/parser_gen.go:3102-3105"]}
{"id": "C117", "title": "Memoize makes the parser linear", "statement": "With the option Memoize the parser evaluates every expression of the grammar at most once for each offset, so at most 312 evaluations for each character and one more: linear in the length for every text, accepted or not, and it always ends. Queries in nested parentheses, which cost more than four to the depth without the option, become linear. A maximum above that bound is never reached.", "quantifier": "for all inputs, with and without a maximum, all environments", "why_tests_cant": "a bound for texts of every length; runs only count particular texts", "anchors": ["internal/grammar/parser_gen.go:2346-2352", "internal/grammar/parser_gen.go:2953-2975", "internal/grammar/parser_gen.go:3061-3152"]}
{"id": "C118", "title": "Patterns are matched by the library against the texts under the path", "statement": "path:/body/ and path:~/body/ accept an object exactly if the regular expression library matches the pattern against a text under the path. The pattern is what stands between the slashes, with every \\/ replaced by /. A body without slashes and backslashes is the pattern as it stands. /(?i)word/ accepts exactly if the word is, ignoring case, a part of a text under the path.", "quantifier": "for all paths, both operators, all patterns that the library compiles and takes apart, all objects whose names on the path are plain", "why_tests_cant": "quantifies over all patterns, paths and objects", "anchors": ["jsonmatcher/expr_regexp.go:11-22", "jsonmatcher/expr_eq.go:26-29", "internal/grammar/aql.peg:342-354"]}
{"id": "C119", "title": "What a syntax error other than 'no match found' says, and when", "statement": "A text is rejected with a message other than 'no match found' exactly if it begins with text after which a clause is expected (the start, an opening parenthesis, AND, OR or NOT behind complete operands), followed by a clause with something wrong in it: a string in its path that is not closed or names half a character; or, behind a correct path, colon and the longest operator, a value of a known shape that denotes nothing, a word that is no value, or one value alone in parentheses. The message, its length and its place are those of what is wrong, whatever follows. The longest shape is taken for addresses, datetimes come before days and days before numbers; a parenthesis that begins no list, like a:(1 2), is taken for a word. Every text that is neither a query nor contains such a clause gets a list of what was expected.", "quantifier": "for all texts, all environments", "why_tests_cant": "an equivalence over all texts; tests only show that some texts get some message", "anchors": ["internal/grammar/aql.peg:187-500", "internal/grammar/parser_gen.go:2826-2850", "internal/grammar/parser_gen.go:2984-3050", "parser/parser.go:16-81"]}
{"id": "C120", "title": "Queries from a reader", "statement": "ParseQueryReader does with a reader what ParseQuery does with the bytes the reader delivers, in whatever portions they come. If reading fails, the error has the reader's text and no position, there is no tree, and no visitor is called. It returns exactly if the reader ends. Without further visitors, an error has no position exactly if reading failed.", "quantifier": "for all readers (sequences of results of Read), all visitors, all environments", "why_tests_cant": "unboundedly many ways to cut a text into portions and to fail; 'every other error has a position' is about all texts", "anchors": ["parser/parser.go:16-81", "internal/grammar/parser_gen.go:2424-2431", "internal/grammar/parser_gen.go:69-72"]}
{"id": "C121", "title": "Memoize does not change what the parser returns", "statement": "With the option Memoize the parser returns what it returns without: the same tree for the same texts, and for every other text the same first error, at the same place, with the same list of what was expected, although most failed tests are not repeated and labels are not set again when a result is taken from the table. With any combination of Memoize and MaxExpressions it returns that or reports that the maximum is reached. With Memoize a maximum above 312 for each character, and one more character, changes nothing, so a maximum that is safe for all queries of a given length exists. For queries, and for texts that get a list of what was expected, Memoize leaves out evaluations and adds none, so it can be added to any maximum that suffices without it.", "quantifier": "for all inputs (including invalid encodings), all options, all environments", "why_tests_cant": "an equation between two runs over all texts; the table is keyed by expression and offset only, while results and recorded failures may depend on the context, so a difference could show up in rare texts only", "anchors": ["internal/grammar/parser_gen.go:2274-2280", "internal/grammar/parser_gen.go:2346-2352", "internal/grammar/parser_gen.go:2850-2867", "internal/grammar/parser_gen.go:2953-2975", "internal/grammar/parser_gen.go:3061-3152"]}
{"id": "C122", "title": "Exactly when the parser needs Recover", "statement": "Actions of the grammar do panic: after an error that leaves no value behind (a string, pattern, decimal number, address or date that cannot be converted, no value at all, a list of one) a later type assertion fails. With Recover(true), the default, Parse always returns, and it returns the first recorded error. With Recover(false) and without Memoize, Parse panics in an action exactly on the texts for which such an error is recorded, panics because of MaxExpressions exactly if the text needs more evaluations, and otherwise returns what it returns by default. In particular queries and texts that get a list of what was expected never panic in an action (with Memoize neither), while a text with a wrong clause whose message begins with one of eight phrases always does. Numbers out of range and patterns that are not closed are errors without a panic.", "quantifier": "for all inputs (including invalid encodings), all maximums, all environments", "why_tests_cant": "an equivalence over all texts: that no panic is possible without such an error, and that none of these errors can ever be followed by backtracking that avoids the panic", "anchors": ["internal/grammar/parser_gen.go:2374-2386", "internal/grammar/parser_gen.go:2984-3048", "internal/grammar/parser_gen.go:1884-2229", "internal/grammar/aql.peg:183-466"]}
{"id": "C123", "title": "How deep the parser's recursion gets", "statement": "The depth is the length of the longest chain of calls of parseExpr each of which is made by the one before it. Whatever the input, calls of parseExpr are nested at most 40 times the number of characters plus 39, and at most 50 but for the signs in the text after which the parser calls itself: 17 for every opening parenthesis, 3 for every negation, 5 for every AND or OR. A text without them needs at most 50, however long it is. Conversely any text that begins with n parentheses, query or not, needs at least 17 n, and the tree of an accepted query is never higher than a fifth of the depth. The rates are exact on accepted queries: 17 for parentheses inside one another, 20 if negated, 5 for rows of ORs or ANDs. So no depth suffices for all queries: for every depth D there is a query of at most D/8+10 characters that exceeds it (and exceeding the maximum size of a goroutine's stack ends the process; Recover does not help). The depth never exceeds the number of evaluations, so a query accepted with MaxExpressions (and without Memoize) needs no more depth than the maximum, and a text that begins with more than a seventeenth as many parentheses is not accepted.", "quantifier": "for all inputs (including invalid encodings), all n, all depths, all environments", "why_tests_cant": "bounds over inputs of every length, and lower bounds with the exact rate for every length; tests that come near the limit of the stack end the process", "anchors": ["internal/grammar/parser_gen.go:3090-3152", "internal/grammar/parser_gen.go:3061-3088", "internal/grammar/parser_gen.go:2374-2386", "internal/grammar/aql.peg:183-466", "internal/grammar/parser_gen.go:2274-2280"]}
{"id": "C124", "title": "Which texts Match takes for documents", "statement": "`Match` takes a text (in UTF-8) for a document exactly if it is a JSON text of RFC 8259 with at most 10000 arrays and objects inside each other; any other text gives the error `invalid JSON`. A text encodes at most one document; two JSON texts encode the same document, strings and numbers taken as they are written, exactly if they differ only in white space outside strings, and then `Match` treats them alike; every tree of values whose strings and numbers are spelled as JSON has it, up to that depth, is the document of some text (so the theorems about all documents speak of nothing but these and trees that no text encodes). The answer on a text is the meaning of the query on the document it encodes, and matching reads at most eight times the length of the query times the length of the text. The command aqltest prints that answer and exits with 0; for a file with any other text it reports invalid JSON, prints nothing and exits with 1.", "quantifier": "for all texts, all documents, all accepted queries", "why_tests_cant": "quantifies over all texts, over all layouts of a document and over all queries", "anchors": ["jsonmatcher/jsonmatcher.go:35-40", "jsonmatcher/json_values.go:84-112", "cmd/aqltest/main.go:39-62"]}
{"id": "C125", "title": "The sampler on JSON texts", "statement": "`Sample` accepts a JSON text (in UTF-8) exactly if there is no white space around it, it is an object or an array, every name down to the depth can be decoded by jsonparser, and no element of an outermost array is a scalar (and, if an earlier error took the sampler's map, no scalar is in reach). A text with white space around it or of a scalar is refused and changes nothing; an array with a scalar in reach makes `Sample` panic; a name that cannot be decoded costs all keys, though `Match` takes the text for a document. After any accepted texts the keys are exactly the written forms of the lists of names, no longer than the depth, that lead to a scalar in one of the documents, and every text is counted; a key reported for texts of objects with distinct plain names, typed in as a query with `:exists` behind it, matches one of the texts (if they are not nested too deeply for `Match`). Unlike `Match`, `Sample` has no limit on brackets within brackets.", "quantifier": "for all JSON texts, all samplers and depths, all sequences of accepted texts, and every library that finds the members and elements of JSON texts", "why_tests_cant": "quantifies over all texts with all their layouts, over all sequences of them and over the depth", "anchors": ["sampler/sampler.go:40-73", "sampler/sampler.go:75-122"]}
{"id": "C126", "title": "What the repository writes as JSON is JSON", "statement": "Every value that the repository writes with encoding/json - the statistics of aqltest, the syntax tree in the browser, messages, reports about the values of fields - is written as a JSON text by the grammar of RFC 8259, without white space around it; both layouts (indented and compact) encode the same document, and it stands for the value written and for no other. `Match` takes such a text for a document exactly if no more than 10000 arrays and objects are inside each other: always for statistics, messages and field reports; for trees if there are fewer than 9998 levels above the comparisons, and not if there are more.", "quantifier": "for all values (all strings, all integers, any nesting), both layouts, all depths of indentation, both styles of escaping, all matchers, syntax trees, messages and field statistics", "why_tests_cant": "quantifies over all strings with all characters that must be escaped and over unbounded nesting", "anchors": ["cmd/aqltest/main.go:57", "wasm/aqlparse/main.go:20", "jsonmatcher/field_stats.go:79-97", "parser/message.go:13-15"]}
{"id": "C127", "title": "What the tools print can be queried", "statement": "A query on a text that the repository wrote as JSON is answered from the value that was written, whatever had to be escaped: `path:exists` is yes exactly if the names lead to something in the value, `path:null` exactly if they lead to null and nothing else, `path:\"literal\"` (where the names lead to no numbers) exactly if the literal holds of one of the strings, and `path:n` (where they lead to no strings and no null, and n is below 2^53 in size) exactly if n is one of the numbers, of any size. On the statistics that aqltest prints, `times_checked:n` and `times_matched:n` are yes exactly if the counter of the top node is n, `node_name` is compared by the rules for strings, and no other field exists.", "quantifier": "for all values that are not arrays and nest no deeper than 10000, both layouts, all indentations, both styles of escaping, all paths, literals and compiled queries, all matchers whose statistics are printed, all libraries that decode the escapes of RFC 8259", "why_tests_cant": "quantifies over all values, paths, strings with any characters that must be escaped, and counters", "anchors": ["cmd/aqltest/main.go:57", "jsonmatcher/json_values.go:84-112", "jsonmatcher/node_stats.go:5-10"]}
{"id": "C128", "title": "Following the hints on a pattern does not change the answers", "statement": "Where the matcher hints that an outer group, a leading `.*` or a trailing `.*` of a regular expression is not needed, the pattern without it is found in exactly the same texts, so that the query accepts exactly the same documents.", "quantifier": "for all regular expressions (any tree of characters, classes, anchors, repetitions, groups, sequences and alternatives), all patterns that a library reads as such, all texts, paths and documents", "why_tests_cant": "quantifies over all regular expressions and all texts; the meaning of regular expressions is given by a relation, not by the library", "anchors": ["jsonmatcher/query_messages.go:32-56", "jsonmatcher/query_messages.go:66-91", "wasm/aqlparse/warnings.go:36-52"]}
{"id": "C129", "title": "Following the hint on alternations does not change the answers", "statement": "Where the matcher hints that a regular expression of alternative words, `path:/one|two/`, may be replaced by a match with several strings, `path:(\"one\", \"two\")`, the replacement accepts exactly the same documents.", "quantifier": "for all lists of words, all patterns that a library reads as the alternatives of these words (in a group or not), all paths and documents", "why_tests_cant": "quantifies over all words, texts and documents; the two matchers share no code", "anchors": ["jsonmatcher/query_messages.go:39-45", "jsonmatcher/query_messages.go:66-82", "jsonmatcher/expr_eq.go:23-28", "jsonmatcher/str_matchers.go:27-67"]}
