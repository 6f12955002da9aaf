# Design of the machine-checked model of aql

Subject: `/repo` (flowchartsman/aql, Go). Prover: Lean 4.33 with single Mathlib modules.
Layout: `lean/Verif/Model` (the code, function by function, each definition citing file and
lines), `lean/Verif/Spec` (independent specifications, no use of model helpers),
`lean/Verif/Proofs` (lemmas), `lean/Verif/Props` (property theorems, one file per area, each with
concrete instances that meet its hypotheses), `lean/Verif/Tests` (the repository's own test tables
run against the model with `#guard`; these are evidence for the model, not proofs).

## Trusted base

* Lean's kernel. Axioms: at most `propext`, `Classical.choice`, `Quot.sound`. `python3 tools/audit.py`
  prints the axioms of every theorem in the manifest and fails if another one appears.
* The transcription of the Go sources into Lean, function by function (table below). Evidence for it:
  the repository's own test tables run on the model (`Verif/Tests`, `#guard`), and
  the grammar tables generated mechanically from `parser_gen.go` by `tools/gen_grammar.py`.
* Documented behaviour of code outside the repository, written down as Lean definitions or left as
  parameters (fields of the structure `Env`, over which every theorem is universally quantified):
  * jsonparser / encoding/json: a document is either invalid or a tree `Json` (which one: Model/DocText, for texts in
    UTF-8; `json.Valid` also accepts other bytes inside strings); `Get` on an object
    returns the first member whose unescaped key matches (a key that cannot be unescaped ends the
    search); `ArrayEach` visits elements in order. Unescaping of strings: parameter.
    Texts inside documents are lists of characters; documents with invalid UTF-8 are not modelled.
    `Get` on a root array with an empty key or a key starting with `[`: parameter (may panic).
    For the sampler, which does not validate first, every container carries a marker saying whether
    jsonparser's iteration over it ends with an error; this stands for jsonparser's lazy scanning. C125 speaks of
    JSON texts and assumes that jsonparser finds what they encode (`Finds`; met by some library, `finds_exists`).
  * strconv.ParseFloat: correctly rounded binary64 for decimal text (defined, any exponent; Go clamps
    exponents beyond 10000, which cannot change the rounded value); the exact value of other spellings (hex, inf,
    nan, underscores): parameter, rounded in the same way.
  * strconv.FormatFloat with format `f` and precision -1: defined (`Model/FormatFloat`) by its documented result, the
    shortest decimal that reads back, closest to the number. It is told whether a zero is negative (`-0` prints its
    sign; no comparison sees it). Proved in C100 to be the only text with these properties.
  * strconv.Unquote: defined, including that `\u`/`\U` escapes of surrogates are rejected (Go 1.17+).
  * dateparse.ParseAny, x/text/search, user regular expressions: parameters.
  * regexp syntax and matching for the fragment generated by `stringSearchRegexp`: defined. Go's limits
    on the size of a compiled expression are not modelled.
  * time.Parse for the two layouts used, including the range check of zone offsets (hours at most 24,
    minutes at most 60, Go 1.20+); UnixNano with 64-bit wrap-around: defined.
  * The texts of the errors of regexp.Compile, netip and time.Parse inside error messages: parameters
    (`reErr`, `netErr`, `timeErr`).
  * netip IPv4 ParseAddr/ParsePrefix/Contains/Overlaps: defined. go.mod asks for Go 1.20 or later; the prefix
    length is read as in current releases, which refuse `/08` and `/+8` (older ones used `strconv.Atoi`).
  * unicode.ToLower / simple folding outside ASCII: parameters (the two code points that lower to
    ASCII are written down where the grammar depends on them). C35/C36 use the named hypothesis
    `FoldsApart` about Go's tables where non-ASCII characters matter.
  * go.uber.org/atomic: Inc and Load are atomic steps. Overflow of counters (int64, uint) is ignored.
    A panic inside a goroutine of C41/C42 would end the Go process; the interleaving model covers
    calls that do not panic (C19 says when).
  * graphviz: creating a node or edge with an existing name returns the existing one.
  * Go slices made from a string may have spare capacity (used by the truncation code): parameter.
* Visitors given by callers are arbitrary functions on a state shared by all visitors, plus the list of
  messages they append to their own tape.

### Modelled code

| Go source | Lean |
|---|---|
| internal/grammar/parser_gen.go:189-1882 (grammar tables) | Model/GrammarData (generated) |
| internal/grammar/parser_gen.go:1884-2249 (actions), 2251-3532 (run time); parser/parser.go | Model/Peg; Model/Options (with `MaxExpressions` and `Memoize`), Model/Recover (with `Recover`, too), Model/Stack (counting nested calls) |
| parser/parser.go:16-41 with a reader (not the sizes of the buffers of `io.ReadAll`) | Model/Reader |
| parser/ast/ast.go | Model/Ast, Model/Time, Model/Net |
| parser/validators.go | Model/Validators |
| parser/visitors.go, parser/message.go | Model/Visitors, Model/MsgText |
| parser/fmtmsg | Model/Fmt |
| jsonmatcher/build_matcher.go, nodes.go, node_stats.go, jsonmatcher.go | Model/Matcher, Model/Concurrent, Model/MatchCost (with json_values.go, counting what is read) |
| jsonmatcher/expr_*.go, str_matchers.go, field_expr.go | Model/Exprs, Model/Regex, Model/Net |
| jsonmatcher/json_values.go | Model/Values, Model/Json, Model/DocText (the library's reading of texts) |
| jsonmatcher/query_messages.go | Model/Messages |
| jsonmatcher/field_stats.go | Model/FieldStats |
| sampler/sampler.go | Model/Sampler, Model/SampleBytes (the byte checks of 40-73), Model/SamplerRecover (with the state after a panic), Model/SamplerCost (counting what is read and written) |
| aqlgraph/graph.go (nodes, edges, labels, shapes, colours, pen widths; not fonts and layout) | Model/Graph |
| aqlgraph/node_html.go, graph.go:121-175 (the text of labels) | Model/GraphLabel |
| `NewMatcher` on a query text | Model/Api |
| wasm/aqlparse/main.go, warnings.go | Model/Wasm |
| JSON texts of trees and statistics (encoding/json `MarshalIndent` on ast nodes and `MatchStats`, `Marshal` on field statistics) | Model/JsonOut |
| cmd/aqltest/main.go, cmd/aqlgraph/main.go | Model/Cmd |
| wasm/aqlparse/index.html (`aqlUpdate`, `newMsg`) | Model/Page |
| wasm/aqlparse/server/main.go (which file is opened) | Model/Server |

### Not modelled

Memory limits and the size of stack frames (their number is in Model/Stack), debug printing, the parser's statistics and the options `Entrypoint`, `AllowInvalidUTF8` and
`Debug` (nobody passes them), the `state` and
`globalStore` maps (unused), the rule stack of parser errors (unused by callers), the style and the
highlighting library of the web page, graphviz rendering (except that it reads labels as in Spec/Html and
Spec/EscString), template error texts, texts of operating system errors, the HTTP protocol of the demo
server, the interfaces of valueprovider.go (nothing implements or calls them), and visitors from outside the
repository that return a nil `*ParseError` as a non-nil error.

### Mutation testing

`seeded/LOG.jsonl` records every seeded defect: one edit of a definition in the model (scratch copy
outside this repository), the claims it should break, the theorems whose proofs broke, and what was
tightened when a claim survived.

## Plan per property

| Property | Modelled code | Method |
|---|---|---|
| C01 | pigeon runtime + grammar data + actions, `ParseQueryReader` | fuel interpreter; decidable well-formedness of the grammar implies a linear depth bound (induction on input length and cost) |
| C02, C03, C04 | same | derivation rules for the interpreter; induction over concrete syntax (completeness) and over interpreter runs (soundness) |
| C05, C06, C07, C09 | same | invariants of cursors / error log by induction over interpreter runs |
| C08 | same | lower bound on evaluation count by induction on nesting (refutation); upper bound: polynomial coefficients for the non-recursive rules checked against the grammar (`Proofs/CostFlat`), amortised strong induction for the recursive ones (`Proofs/CostBound`) |
| C10, C11 | `removeStars`, regex action | list induction, counterexample plus partial theorem |
| C12-C14 | validators.go | decision logic characterised by an independent predicate; induction over trees |
| C15-C17 | visitors.go, parser.go | refinement to an event-list specification, induction over trees; negation for C16 |
| C18 | build_matcher.go, expr_*.go, str_matchers.go | validator postcondition implies builder precondition; regex text generated is parsed by the fragment parser |
| C19 (exactly) | nodes.go, json_values.go | three-valued left-to-right evaluation relation `Outcome` (Props/Panics); induction over the built tree |
| C19-C27, C37, C38 | nodes.go, json_values.go, expr_*.go | structural induction on queries, documents, paths; refinement to a declarative resolution relation |
| C28-C30 | expr_float.go, binary64 rounding | monotone rounding over rationals; order lemmas |
| C31-C33 | expr_datetime.go, NewTimeVal | civil calendar arithmetic, 64-bit wrap |
| C34 | expr_net.go, netip | bit-level lemma to address ranges; refinement |
| C35, C36 | str_matchers.go | regex text -> AST -> matcher refined to declarative glob relation |
| C39-C43 | nodes.go, node_stats.go, jsonmatcher.go | state machine over histories; interleaving semantics with invariants |
| C44-C50 | sampler.go | fold over documents, induction; refinement to path relation |
| C51-C53 | fmtmsg | list slicing, linear integer arithmetic |
| C54 | graph.go | state-passing builder, induction over trees |
| C55 | field_stats.go | ring-buffer invariant over histories |
| C56 | ast.go | injectivity by induction |
| C57 | query_messages.go | induction over trees |
| C58 | field_stats.go | induction over samples; negation (the 1000th sample), partial (the first 999) |
| C59 | text to answer: Model/Peg + Validators + Messages + Matcher | composition of C02/C03, C12, C18 and the meaning `Spec.Sat` |
| C60 | same, Spec/Layout | tree of a text is a function of its tokens; outcome is a function of the tree without positions |
| C61 | validators.go, Spec/Blame | blame relation stated apart from the validator; uniqueness |
| C62 | query_messages.go | message positions are positions of values of the query text |
| C63 | same as C59 | `(a) and (b)` etc. answer with the connective of the answers |
| C64 | grammar run time | typing of parser values and of spans of errors, by induction over interpreter runs |
| C65 | wasm/aqlparse, Spec/Utf16 | closed form of `parseAQL`; positions from C05, C61, C64; negations for empty, unterminated and non-ASCII input |
| C66 | expr_net.go, Spec/Net | induction over the extracted parts; negation for glued occurrences |
| C67 | node_html.go, Spec/Html | round trip through an independent reader of labels; negation for unescaped characters |
| C68 | ast.go FriendlyString, Spec/Reread | the printed comparison is laid out tokens of the same comparison; negation by four witnesses; conversely whatever is read from a printed path or value and denotes it is the printed text (Proofs/RereadExact) |
| C69 | grammar, Spec/Expressible | the image of the parser, both inclusions |
| C70, C71 | README abbreviations as texts | two texts, their matchers and their answers compared through `Sat`; negation for ranges on arrays |
| C72, C73 | sampler.go with json_values.go, grammar | leaf paths of the sampler are paths to scalars; reported keys as laid out tokens; negation by four names |
| C74 | sampler.go:40-73 on bytes, Model/SampleBytes | case analysis on first and last byte |
| C36, C75 | str_matchers.go, README.md | occurrence of a plain literal in itself; the README's texts as tokens, answers by the meaning of their trees |
| C11, C13, C29, C47, C53, C58 exactly | Props/Sharp | the exact condition under which a claim that is false in general holds |
| C76, C77 | JSON output, Spec/JsonRead | an independent JSON reader inverts the printer; trees printed alike characterised |
| C78, C79, C80 | cmd/aqltest, cmd/aqlgraph | closed forms of the runs from C59, C61, C62, C64, C40; induction over query texts for their last letters |
| C81, C82 | index.html, Spec/HtmlText | closed form of the page from C65; a browser's tokenizer, by induction on the message |
| C83 | server/main.go, Spec/Walked | lookup in the table of files; clean paths as walks through directories |
| C84 | graph.go:74, Spec/EscString | induction on the query |
| C85 | Model/Peg (`ErrKind.text`, `finish`), Spec/ErrorText | equations for the first error of each kind of expression (Proofs/ErrTrace), induction on the length of the text for clauses; induction on evaluations for the tests |
| C86 | grammar run time, Spec/Expectation | the runs over two texts with a common beginning compared step by step (`Proofs/Align`); keywords half written at the end of the beginning (`Proofs/Torn`, `Proofs/Short`); the furthest failure (`Proofs/Complete`) |
| C87 | parser.go, visitors.go | induction over the visitors; walks as runs over the preorder listing |
| C88 | query_messages.go, Spec/Hints | the conditions of the hints, stated over the parsed pattern; induction over operands and patterns |
| C89 | validators.go, Spec/Complaint | the checks in their order as an inductive relation; first offending operand by induction over the operands |
| C90 | grammar run time, Spec/Beginning | where a run without errors tests the text, for each kind of expression (Proofs/AskTrace); a completion for each such place, induction on the length of the text for clauses (Proofs/AskValue, Proofs/AskClause); for the exact form, what a query contains where an expression, values or a literal are expected (Proofs/OpensRead), and which characters occur in shapes (Proofs/ShapeRead) |
| C91 | grammar run time, Spec/Beginning | where the first error is recorded and what would do there, for each kind of expression; induction on the length of the text for clauses (Proofs/ErrHole) |
| C92 | field_stats.go, encoding/json `Marshal` | invariant: the statistics after any samples as a function of the values marked; sorting by keys; round trip through an independent JSON reader (Proofs/JsonFlat); negation and exact condition for `NewFieldStats` |
| C93 | field_stats.go | induction over the members of an object; negation, exact and partial forms |
| C94 | json_values.go | case folding of five letters; when rounding to binary64 gives zero; negation and exact form |
| C95 | json_values.go | induction over the values |
| C96 | grammar run time, Spec/Beginning, Spec/Expectation | which terminals a run without errors records as wanted at the furthest place, for each kind of expression (Proofs/WantTrace); a completion that begins with each of them (Proofs/WantNumber, Proofs/WantValue, Proofs/WantClause); the exact form as for C90 |
| C97 | ast.go:34-103, 474-487, Spec/Printed | prefix notation: each part can be told from what may follow it (Proofs/PrintedVal for values, Proofs/PrintedNode for paths and trees) |
| C98 | message.go (`String`, `MarshalJSON`), `ParseError.Error` | reading back decimal numbers and types from the front of the text; C62 for the places |
| C99 | graph.go, node_html.go:6-19 | C54; following heavy and light edges from the start point, induction over the tree; values as in C97 |
| C100 | ast.go:243, json_values.go:115-132, Model/FormatFloat, Spec/FormatFloat | rounding is monotone, so the decimals with a given last place that are read as a number are neighbours of it; 17 digits are closer than half a unit in the last place; digit strings without needless zeros are determined by their value |
| C101 | json_values.go:23-170, Spec/Respelled | what the scalars under a path let comparisons see (text, number, truth value, null) is preserved by every respelling; every double has a literal, so a query separates any two different numbers |
| C102 | json_values.go:84-112, nodes.go, Spec/Growth | whatever is found under a path is found, grown, in the grown document; scalars do not grow |
| C103 | json_values.go:84-112, sampler.go:75-122, Spec/Nesting | a path under a name resolves to what the rest resolves to in the member, or in the elements if it is an array; a query whose patterns could be read again has a matcher whatever its paths are |
| C104 | json_values.go:84-112, Spec/Nesting | looking up a renamed name in renamed members gives the renamed value |
| C105 | nodes.go, json_values.go:84-112, Spec/Satisfiable | every comparison that can match wants one scalar under its path; a document with given scalars under given paths, arrays holding several, exists if every name can be spelled |
| C106 | nodes.go, Spec/Satisfiable | every literal that is no pattern, time or non-ASCII string has a text equal to it; every double has a text that is read as it |
| C107 | nodes.go, json_values.go:84-112, Spec/Conflicts | any list of scalars, nulls and empty arrays under given paths is the content of some document and nothing else is found in it; what a document makes hold is consistent by the rules of resolution |
| C108 | Spec/Conflicts | C107 for two queries at once; judgements of queries about different fields can be joined |
| C109 | sampler.go:40-122, Spec/Seen | the model with the map as shared state returns and panics as the one without; below the root nothing panics, so the elements before the first scalar are complete |
| C110 | str_matchers.go, Spec/Glob, Spec/Wildcards | widening steps keep instances; from a word character a word boundary is reached in both directions without passing a line break |
| C111 | grammar, nodes.go, Spec/NormalForm | distribution over the tokens of the query; the clauses are laid out again, and their comparisons, with one literal each, obey the rules the original ones obey |
| C112 | json_values.go, nodes.go, Spec/Size, Spec/MatchReads | a counting version of `getValues` and `result` with the same results; the values found are disjoint parts of the document, by induction on the path, so every step reads at most the document twice; nested objects show the square; on objects the count equals a sum over names and objects (Spec/MatchReads, breadth first) and over the nodes the statistics count |
| C113 | sampler.go | a counting version of `sample` with the same results; mutual induction on the document with the levels left; families of documents for the lower bounds; a call that succeeds spends exactly what `Spec/SampleReads` lists |
| C114 | warnings.go, main.go, Spec/PageHints | the messages over the operands, by induction, with the part on patterns shared with C88; the typing rules refuse what the warning recommends; C31 refutes it for short dates |
| C115 | grammar, Spec/Depth | induction on the derivation: completeness (C03) tells where every rule stops, so the alternatives given up are known to be short; the depth in the text by a scan; rejected texts by the invariant that what a clause reads has its parentheses in pairs (Proofs/Balance), then a potential in the length left (Proofs/DepthAll) |
| C116 | Model/Options | simulation: the run with a maximum follows the run without one until the counter reaches it |
| C117 | Model/Options | invariant: every evaluation leaves a new pair of expression and offset in the table or is still in progress, and those in progress are ordered by the measure of C01, so no pair is evaluated twice; 312 expressions are counted in the grammar |
| C118 | Model/Peg, Model/Exprs, Model/Env | completeness of the clause language gives the tree, C36 gives the texts under the path; the rest is the shape of the pattern between the slashes. The library itself is a parameter: that it compiles the pattern and can take it apart are hypotheses |
| C119 | grammar, Model/Peg, Spec/Wrong | both directions by following the first error recorded: where a wrong clause stands the run records its error first (`Proofs/WrongStart`), and the first error recorded anywhere is that of a wrong clause at a place where one is expected (`Proofs/FlawStart`); the errors of lists need that the list alternative neither matches nor records anything |
| C120 | parser.go:16-81, parser_gen.go:2424-2431 | induction over the calls of `Read`; C01, C06 and C61 for the positions |
| C121 | Model/Options, Model/Peg | simulation of the two runs until the first error: every entry of the table is the result of an evaluation in the context in which it is used, and its failed tests have been recorded (`Proofs/MemoSim`). Entries made in another context (inside `!`, under a recovery, with labels) are shown never to be hit, by which characters the texts of the clauses begin and end with (`Proofs/MemoText`, `Proofs/MemoEnd`). Then the furthest failure depends on the set of failed tests only (`Proofs/MemoWhole`), and a maximum cuts the run (`Proofs/MemoLimit`) |
| C122 | Model/Recover, Model/Peg | no panic without a fatal error: the typing of C64, kept up by the errors that leave a value of the right type (`Proofs/Mild`). A panic after every fatal error: a check of the grammar says that the value nil is passed on to an action that asserts a type (`Proofs/Fatal`); the exception, a list that is not closed, is tried again as a value and its parenthesis is a fatal error, too (`Proofs/FatalList`) |
| C123 | Model/Stack, Model/Peg | the counting interpreter returns what `run` returns, and its count does not depend on the fuel, so that the fuel that suffices (C01) bounds it. The finer bound is a potential argument: the count is at most a static depth of the expression plus the weight of the signs still to be read (`Proofs/StackTurns`). Lower bounds follow chains of calls that every run of an expression must make (`Leads`, `Proofs/Stack`, `Proofs/StackTree`). That the count is right is stated against a relation of which call makes which (`Spec/Calls`): it is the length of the longest chain (`Proofs/StackChain`). Nested calls are evaluations, whence the effect of `MaxExpressions` (`Proofs/StackCost`) |
| C124 | jsonmatcher.go, Model/DocText (json.Valid and what jsonparser finds), Spec/DocText | soundness by induction on the recursion bound, completeness by induction on the rules of RFC 8259; a document of every shape by structural recursion |
| C125 | sampler.go on texts, Spec/SampleText | the grammar of C124 joined with C44, C46, C47 and C74; `Finds` (Spec/SampleText) is the assumption on jsonparser: it finds the members and elements of a JSON text that begins with its bracket |
| C126 | Model/JsonOut, Model/FieldStats, Model/MsgText; Spec/JsonText | structural recursion over the values into the rules of RFC 8259 (Spec/DocText); the reader of C76-C78, C92 and C98 (Spec/JsonRead) is proved sound and complete for those rules on documents without truth values, fractions, exponents and surrogates |
| C127 | Model/JsonOut, Model/Matcher; Spec/Reading | simulation between paths in documents and paths in the values written; hypothesis on the library: `UnescapesJson`, that jsonparser decodes the escapes of RFC 8259 other than surrogates (met by `decodingEnv`) |
| C128 | Model/Messages, Model/Env; Spec/Advice | meaning of regular expressions as an inductive relation; hypothesis on the library: `ReadsRx`, that it makes the tree of an expression and matches what the expression means (met by `readingEnv` for three patterns); `C128_lazy` needs no hypothesis on the library |
| C129 | Model/Messages, Model/Exprs, Model/Regex; Spec/Advice, Spec/Glob | hypotheses on the library: `ReadsRx` (met by `eitherEnv`) and `FoldsApart` |
| C06 exactly | grammar run time | the furthest failure after every run (`Proofs/Furthest`) |
| C31, C32 exactly | expr_datetime.go | 64-bit wrap as a function on integers (`Spec.wrapped`) |
| C67, C73 exactly | node_html.go, sampler.go | counting characters: markup, references and quoted names always shorten (`Proofs/HtmlExact`) |
| C42, C46, C71 exactly | nodes.go, sampler.go, expr_numeric.go | `Props/Snapshot` builds the schedule for every reachable pair; `Props/Sampling` follows a sampler through any sequence of calls; `Props/Readme` compares the two queries scalar by scalar |
| C24, C25, C28, C31, C32, C34, C35, C37 as texts | Props/Texts | `C59_ready_of_text` carries theorems about trees to texts |
