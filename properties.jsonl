{"id": "C01", "title": "Stream position stays inside the text", "statement": "After any sequence of CodeStream calls on a RuneStream (SetPos, MatchString, MatchRegexp, MatchRune, GetUntil, Peek*), Pos() is between 0 and Length(); SetPos outside that range panics and does not move the cursor.", "quantifier": "for every text (any bytes), every finite sequence of calls with any arguments, every rune predicate and every regular expression", "why_tests_cant": "The set of call histories and texts (including invalid UTF-8) is infinite; a test fixes one history.", "anchors": ["codestream_rune.go: NewRuneStream, SetPos, GetUntil, MatchString, MatchRegexp, MatchRune"]}
{"id": "C02", "title": "Line and column numbers are exact", "statement": "PosToLine(p) is the number of newline bytes strictly before offset p, and PosToCol(p) is the number of bytes between the start of that line and p, so that line start + column = p.", "quantifier": "for every text, including invalid UTF-8, and every offset 0 <= p <= Length()", "why_tests_cant": "Depends on binary search over a table built by rune decoding; only finitely many texts can be tested, and an off by one shows on particular shapes only.", "anchors": ["codestream_rune.go: NewRuneStream, PosToLine, PosToCol", "helpers/bisect.go: BisectRight"]}
{"id": "C03", "title": "MatchString is an exact prefix test", "statement": "MatchString(s) succeeds exactly when the remaining input starts with s; then it returns s and advances by len(s). Otherwise the position is unchanged.", "quantifier": "for every text, position and needle", "why_tests_cant": "Boundary cases (needle longer than the rest, empty needle, end of input) are unbounded in combination.", "anchors": ["codestream_rune.go: MatchString", "codestream_token.go: MatchString"]}
{"id": "C04", "title": "MatchRune consumes exactly one code point", "statement": "MatchRune(f) succeeds exactly when there is remaining input and f accepts its first code point; it then moves past exactly the encoded width of that code point. Otherwise the position is unchanged.", "quantifier": "for every text (any bytes), position and predicate", "why_tests_cant": "The code derives the width indirectly (offset of the next rune, or end of text); only a proof covers all byte strings.", "anchors": ["codestream_rune.go: MatchRune", "codestream_token.go: MatchRune"]}
{"id": "C05", "title": "MatchRegexp is anchored at the cursor", "statement": "MatchRegexp(re) succeeds exactly when re's leftmost match in the remaining input starts at the cursor; it returns that matched text and advances by its length. Otherwise the position is unchanged.", "quantifier": "for every text, position and every regular expression engine result that respects FindStringIndex bounds", "why_tests_cant": "Quantifies over all regular expressions and texts.", "anchors": ["codestream_rune.go: MatchRegexp", "codestream_token.go: MatchRegexp"]}
{"id": "C06", "title": "GetUntil returns up to and including the first terminator", "statement": "If the terminator occurs in the remaining input, GetUntil returns the shortest piece of input ending with its first occurrence and moves just after it. The interface also promises: when it does not occur, return the empty string and do not move.", "quantifier": "for every text, position and terminator", "why_tests_cant": "First occurrence is a universally quantified minimality claim.", "anchors": ["codestream.go: CodeStream.GetUntil", "codestream_rune.go: GetUntil", "codestream_token.go: GetUntil"]}
{"id": "C07", "title": "PeekRunes returns the neighbouring code points and does not move", "statement": "On valid UTF-8, PeekRunes(n) with n>0 returns exactly the next min(n, available) code points, and with n<=0 the previous min(-n, available) code points in natural order; the cursor is unchanged.", "quantifier": "for every sequence of code points before and after the cursor and every n", "why_tests_cant": "Requires correctness of forward and backward UTF-8 decoding for all code point sequences.", "anchors": ["codestream_rune.go: PeekRunes", "helpers/helpers.go: LastNRunes"]}
{"id": "C08", "title": "PeekLines returns exactly the requested lines", "statement": "PeekLines(n...) returns the text of the lines from current+min to current+max, clipped to the text, without moving and without panicking.", "quantifier": "for every text, position and argument list", "why_tests_cant": "Argument lists and texts are unbounded; out of range arguments index a slice.", "anchors": ["codestream_rune.go: PeekLines", "codestream_token.go: PeekLines", "codestream.go: CodeStream.PeekLines"]}
{"id": "C09", "title": "Token stream positions map back to the original text", "statement": "For a work offset that falls inside token k, the reported original position is the original offset of token k plus the offset inside that token.", "quantifier": "for every token list laid out contiguously and every work offset", "why_tests_cant": "The search loop has different exit paths for last and non last tokens; a test samples some of them with tolerant assertions.", "anchors": ["codestream_token.go: coords, PosToLine, PosToCol"]}
{"id": "C10", "title": "Tokenising Go code lays tokens out contiguously", "statement": "The token stream built from scanner output has a work text that is the concatenation of the token texts, and every token's work offset is the total length of the tokens before it.", "quantifier": "for every sequence of scanner tokens", "why_tests_cant": "Induction over an arbitrary token sequence.", "anchors": ["codestream_token.go: TokenStreamFromGoCode, NewTokenStream"]}
{"id": "C11", "title": "Lexical errors are reported, independently of earlier calls", "statement": "If the Go scanner reports an error while scanning the source, TokenStreamFromGoCode returns a non nil error, and a call's outcome does not depend on previous calls.", "quantifier": "for every history of calls and every scanner behaviour", "why_tests_cant": "It is a property of call histories over a package level variable.", "anchors": ["codestream_token.go: scanErrors, handleErrors, TokenStreamFromGoCode"]}
{"id": "C12", "title": "Parsing tokens equals parsing the joined text", "statement": "ParseTokens on a fresh token stream succeeds exactly when ParseString on the concatenated token texts succeeds, with the same result.", "quantifier": "for every grammar, token list and callback", "why_tests_cant": "Two implementations of one interface must agree on all runs.", "anchors": ["grammar.go: ParseString, ParseTokens", "codestream_token.go: MatchString, MatchRegexp, SetPos, Pos, workLength"]}
{"id": "C13", "title": "Bisection and ordered insertion", "statement": "On a sorted slice, BisectLeft/BisectRight return the boundary index (all elements before are <,<= x and all after are >=,> x) and InsortLeft/InsortRight return a sorted permutation of the slice with x added.", "quantifier": "for every sorted integer slice and every value", "why_tests_cant": "Binary search correctness is a universally quantified claim about all lengths.", "anchors": ["helpers/bisect.go: BisectLeft, BisectRight, InsortLeft, InsortRight"]}
{"id": "C14", "title": "SliceString agrees with JavaScript slice", "statement": "SliceString(s, a, b) equals JavaScript's s.slice(a, b) and never panics.", "quantifier": "for every string and all integers a and b", "why_tests_cant": "Two unbounded integer arguments with several sign cases.", "anchors": ["helpers/helpers.go: SliceString"]}
{"id": "C15", "title": "Escaping loses no information", "statement": "Two different strings have different escapings (Escape is injective), and the escaped text contains none of the escaped control characters.", "quantifier": "for every pair of strings", "why_tests_cant": "Injectivity quantifies over pairs of arbitrary strings.", "anchors": ["helpers/helpers.go: Escape, EscapeButKeepNonAscii"]}
{"id": "C16", "title": "LastNRunes and LastNRunesReversed select a suffix", "statement": "On valid UTF-8 without U+FFFD, LastNRunes(s, n) is the suffix made of the last min(n, count) code points, and LastNRunesReversed(s, n) is the same code points in reverse order. On malformed text LastNRunes panics.", "quantifier": "for every string and every n", "why_tests_cant": "Backward decoding must be right for all byte sequences.", "anchors": ["helpers/helpers.go: LastNRunes, LastNRunesReversed"]}
{"id": "C17", "title": "Lazy evaluates at most once and then is stable", "statement": "Between a SetLazy/LazyFromFunc and the next Set or Clear the evaluator runs at most once, repeated Get return the same value, and Set overrides. Get never crashes.", "quantifier": "for every history of Set, SetLazy, Clear, IsSet and Get calls", "why_tests_cant": "A statement about all call histories.", "anchors": ["helpers/lazy.go: Get, Set, Clear, SetLazy, IsSet"]}
{"id": "C18", "title": "NativeMap is an insertion ordered map", "statement": "After any history of Set calls, Get returns the last value set for a key, Exists/GetExists hold exactly for the keys set, and Keys lists each key once in order of first insertion.", "quantifier": "for every history of Set calls and every key", "why_tests_cant": "Two representations (map and key list) must stay consistent for all histories.", "anchors": ["native_map.go: NewNativeMap, Set, Get, GetExists, Keys, Exists, IsUndefined, GetWhicheverOrPanic"]}
{"id": "C19", "title": "IsEmpty tells whether a NativeMap has no entries", "statement": "IsEmpty() is true exactly when the map holds no key.", "quantifier": "for every map content", "why_tests_cant": "Must hold for all contents; no test calls it.", "anchors": ["native_map.go: IsEmpty"]}
{"id": "C20", "title": "Concat flattens in source order", "statement": "Concat on arrays and maps returns the concatenation of the leaf strings in order, skipping undefined values, at any nesting depth; it panics exactly when a map contains a foreign value.", "quantifier": "for every nested value", "why_tests_cant": "Values nest without bound.", "anchors": ["native_array.go: Concat", "native_map.go: Concat"]}
{"id": "C21", "title": "Integer and string natives round trip", "statement": "NativeIntFrom(NativeStringFrom(n)) = n for every int, and NativeIntFrom accepts exactly the optionally signed decimal strings that fit in an int.", "quantifier": "for every 64 bit integer and every byte string", "why_tests_cant": "2^64 integers and all strings.", "anchors": ["native_int.go: NewNativeIntFromString, NativeIntFrom", "native_string.go: NativeStringFrom"]}
{"id": "C22", "title": "The packrat engine computes PEG semantics", "statement": "If the standard PEG meaning of the grammar (ordered choice, greedy repetition, predicates, sequences with captures and labels, callbacks) gives an outcome at the start of the input, then running the memoising parser terminates with exactly that outcome, value and end position.", "quantifier": "for every grammar, input, set of pure callbacks, memo state reachable on the way and regular expression engine, as long as rule nesting stays within the engine's stack", "why_tests_cant": "Quantifies over all grammars and inputs; memo table interactions depend on the whole backtracking history.", "anchors": ["packrat.go: stack, loopify, prepareResult, wrap", "parsectx.go: getFrame, stackPush", "parser_*.go: parse"]}
{"id": "C23", "title": "Memoisation is invisible", "statement": "Turning caching off (SkipCache) for any set of rules does not change the result of a parse that has a PEG outcome; in particular a cache hit returns what re-parsing would.", "quantifier": "for every grammar with a PEG outcome on the input, every input and every subset of rules", "why_tests_cant": "Cache effects depend on arbitrary backtracking histories.", "anchors": ["packrat.go: loopify", "parseoption.go: SkipCache"]}
{"id": "C24", "title": "A rule's callback runs at most once per input position", "statement": "During one parse with a PEG outcome, the callback of a cached rule is invoked at most once for each start position.", "quantifier": "for every grammar and input with a PEG outcome", "why_tests_cant": "It is a bound on all executions; tests only observe counters for samples.", "anchors": ["packrat.go: loopify, prepareResult"]}
{"id": "C25", "title": "Parsing terminates", "statement": "ParseString returns or panics after finitely many steps for every grammar, left recursive ones included.", "quantifier": "for every grammar and every input", "why_tests_cant": "Non termination cannot be observed by a test, termination on all inputs even less.", "anchors": ["packrat.go: loopify", "parser_pattern.go: parse"]}
{"id": "C26", "title": "No internal assertion can fire", "statement": "The engine's internal panics (unexpected stage, missing wipemask, frame position assertion, memo index out of range, position out of bound) never happen.", "quantifier": "for every grammar, left recursive ones included, every input and every callback", "why_tests_cant": "Absence of a panic over all executions.", "anchors": ["packrat.go: loopify", "parsectx.go: getFrame, wipeWith, restoreWith", "codestream_rune.go: SetPos"]}
{"id": "C27", "title": "The engine's stack is balanced and positions only grow", "statement": "A parser call that returns leaves the rule stack as it found it, never ends before the position it started at and never beyond the end of input, whether it succeeds or fails.", "quantifier": "for every grammar, input and intermediate state", "why_tests_cant": "Invariant over all reachable states.", "anchors": ["packrat.go: stack, loopify", "parsectx.go: stackPush, stackPop"]}
{"id": "C28", "title": "Predicates never consume input", "statement": "!e and ?e leave the position unchanged whether they succeed or fail; !e succeeds exactly when e fails and ?e exactly when e succeeds.", "quantifier": "for every e, grammar, input and state", "why_tests_cant": "Universal over all sub expressions.", "anchors": ["parser_not.go: parse", "parser_lookahead.go: parse", "README.md: Operators"]}
{"id": "C29", "title": "Choice is ordered and backtracks", "statement": "a | b | c gives the result of the first alternative that succeeds, every alternative is tried from the same position, and when all fail the position is restored.", "quantifier": "for every list of alternatives, grammar, input and state", "why_tests_cant": "Universal over alternatives and states.", "anchors": ["parser_choice.go: parse", "parser_rank.go: parse"]}
{"id": "C30", "title": "Sequence result shape", "statement": "A sequence succeeds exactly when all its elements match one after the other; its result is an object when some element is labelled, the array of captured elements when several are captured, and otherwise the captured element or undefined.", "quantifier": "for every sequence, grammar, input and state", "why_tests_cant": "Universal over sequences and nested shapes.", "anchors": ["parser_sequence.go: calculateType, parseAsSingle, parseAsArray, parseAsObject"]}
{"id": "C31", "title": "Repetition counts respect the bounds", "statement": "e{m,n} matches e t times with m <= t <= n, greedily, and fails only when fewer than m matches are available; with a join, the join is matched exactly between consecutive values and never trailing.", "quantifier": "for every e, join, bounds, grammar, input and state", "why_tests_cant": "Unbounded counts.", "anchors": ["parser_pattern.go: parse", "README.md: Operators"]}
{"id": "C32", "title": "Optional always succeeds", "statement": "e? never fails; it gives e's result, or undefined with the position unchanged when e fails.", "quantifier": "for every e, grammar, input and state", "why_tests_cant": "Universal over e.", "anchors": ["parser_existential.go: parse"]}
{"id": "C33", "title": "Left recursion grows its seed strictly", "statement": "When a rule is left recursive at a position, each iteration of the growing loop ends strictly further than the previous one, there are at most as many iterations as remaining bytes, and the last grown result is the one returned.", "quantifier": "for every grammar, input and body behaviour", "why_tests_cant": "Loop invariant over all bodies.", "anchors": ["packrat.go: loopify (lines 147-211)"]}
{"id": "C34", "title": "Direct left recursion parses and associates to the left", "statement": "For a rule E: E op T | T, input t0 op t1 op ... op tn is parsed entirely and the result nests to the left.", "quantifier": "for every number of operands and all operand and operator texts", "why_tests_cant": "Unbounded input length; a test checks a handful of lengths.", "anchors": ["packrat.go: loopify", "joeson_test.go", "examples/calculator"]}
{"id": "C35", "title": "A parse either consumes everything or is an error", "statement": "ParseString returns a ParseError exactly when the grammar does not match the whole input; a returned non error value means the whole input was consumed.", "quantifier": "for every grammar and input", "why_tests_cant": "Universal over grammars and inputs.", "anchors": ["grammar.go: parse", "parseerror.go: IsParseError"]}
{"id": "C36", "title": "Error positions are inside the text and ordered", "statement": "The position reported in a parse error lies between the end of the partial match and the end of the input, is at most the furthest attempted position, and building the error message never panics.", "quantifier": "for every grammar and input that fails", "why_tests_cant": "Depends on the whole memo table at the end of an arbitrary parse.", "anchors": ["grammar.go: parse (lines 122-151)"]}
{"id": "C37", "title": "Parses are independent of each other", "statement": "The outcome of ParseString does not depend on earlier parses with the same grammar, and parsing leaves the grammar's trace options as they were, even when a callback panics.", "quantifier": "for every history of parses", "why_tests_cant": "A property of call histories, including histories with recovered panics.", "anchors": ["grammar.go: ParseString, parse", "parsectx.go: newParseContext"]}
{"id": "C38", "title": "A token stream can be parsed again", "statement": "Calling ParseTokens twice on the same token stream gives the same outcome.", "quantifier": "for every grammar and token stream", "why_tests_cant": "History property.", "anchors": ["grammar.go: ParseTokens", "codestream_token.go: TokenStream"]}
{"id": "C39", "title": "Tracing does not change results", "statement": "Enabling trace options or rule level Debug changes neither the result nor whether the parse panics.", "quantifier": "for every grammar, input and trace options", "why_tests_cant": "Relates pairs of executions.", "anchors": ["packrat.go: loopify", "parsectx.go: log, loopStackPush, loopStackPop", "traceoptions.go"]}
{"id": "C40", "title": "Deeply nested input is handled", "statement": "Parsing does not crash because the input is nested deeply.", "quantifier": "for every nesting depth", "why_tests_cant": "Depth is unbounded.", "anchors": ["parsectx.go: ParseContext.stack, stackPush"]}
{"id": "C41", "title": "A ParseError returned by a callback aborts the parse", "statement": "When a callback returns a ParseError value, the parse fails and ParseString returns a ParseError.", "quantifier": "for every grammar, input and callback", "why_tests_cant": "Universal over grammars in which the value may be dropped, nested or backtracked over.", "anchors": ["parseerror.go: ParseError (doc)", "packrat.go: prepareResult"]}
{"id": "C42", "title": "Results are not changed after they are produced", "statement": "A value produced by a rule keeps its content when it is reused from the cache by another alternative.", "quantifier": "for every grammar and input", "why_tests_cant": "Aliasing shows only under particular backtracking histories.", "anchors": ["parser_sequence.go: parseAsObject, merge", "packrat.go: loopify"]}
{"id": "C43", "title": "Rule numbering is dense and unique", "statement": "After a grammar is built, its n rules have pairwise different ids which are exactly 0..n-1, every id is below CountRules, and each rule name resolves to the last rule of that name in walk order.", "quantifier": "for every rule tree", "why_tests_cant": "Induction over arbitrary rule trees.", "anchors": ["grammar.go: postinit, getRuleRef, CountRules", "walk.go: Walk", "rule.go: Include"]}
{"id": "C44", "title": "Rule names of anonymous lines", "statement": "The k-th alternative of a rank named R is called R[k] unless it is named, so anonymous alternatives of one rank have different names.", "quantifier": "for every list of lines", "why_tests_cant": "Universal over line lists.", "anchors": ["line_o.go: toRule", "parser_rank.go: rankFromLines"]}
{"id": "C45", "title": "Undefined references are reported", "statement": "A grammar referencing a rule that does not exist panics exactly when a parse reaches the reference; a parse that does not reach it is unaffected.", "quantifier": "for every grammar and input", "why_tests_cant": "Reachability over all executions.", "anchors": ["parser_ref.go: parse", "grammar.go: getRuleRef"]}
{"id": "C46", "title": "TRACE parsing", "statement": "TRACE is read left to right from a muted state, later options override or extend earlier ones, none resets, and without TRACE the given default options are used.", "quantifier": "for every value of the environment variable and every default", "why_tests_cant": "All strings.", "anchors": ["traceoptions.go: TraceOptionsFromEnvironmentOrUse, checkEnvironmentForTraceOptions"]}
{"id": "C47", "title": "Rule text compiles to the parser it denotes", "statement": "Compiling the textual form of a rule expression with the hand compiled joeson grammar yields the parser tree that the expression denotes.", "quantifier": "for every rule expression in the supported syntax", "why_tests_cant": "Expressions nest without bound; a bootstrap test covers one text.", "anchors": ["joeson_handcompiled.go: JoesonRules", "line.go: getRule"]}
{"id": "C48", "title": "Memoised left recursion equals unmemoised left recursion", "statement": "For left recursive grammars too, the cache never makes the parser miss a parse that it would find without the stale entry.", "quantifier": "for every grammar and input", "why_tests_cant": "Stale entries appear only under particular rule interleavings.", "anchors": ["packrat.go: loopify (wipemask)", "parsectx.go: wipeWith, restoreWith"]}
{"id": "C49", "title": "Padding and indentation", "statement": "PadLeft/PadRight return a string of length max(n, len) which contains the input as prefix/suffix; Indent(n) has 2n spaces.", "quantifier": "for every string and integer", "why_tests_cant": "All strings and integers.", "anchors": ["helpers/helpers.go: PadLeft, PadRight, Indent"]}
{"id": "C50", "title": "Parse options given to a parse call take effect", "statement": "SkipCache, SkipLog and Debug passed to ParseString only change tracing and caching, never the outcome.", "quantifier": "for every grammar, input and option list", "why_tests_cant": "Relates pairs of executions.", "anchors": ["parseoption.go", "parsectx.go: applyOption", "packrat.go: loopify"]}
{"id": "C51", "title": "A grammar written as rule texts is built and parses exactly the language the texts denote", "statement": "For every list of lines O(...), I(...), Named(...) with rule texts and nested ranks, GrammarFromLines returns a grammar, and ParseString on any text returns a value if the parsing expressions written in the texts match all of it, a ParseError where the match ends if they match a beginning, and a ParseError at the beginning (nil for an empty text) if they do not match.", "quantifier": "for every list of lines with distinct names and supported rule texts, every input text, every way of representing values and every callback that accepts its argument", "why_tests_cant": "Ties together compiling of texts, numbering and linking of rules, memoisation, and matching for unboundedly many grammars and inputs.", "anchors": ["grammar.go: GrammarFromLines, postinit, ParseString", "line.go: getRule", "parser_rank.go: rankFromLines", "joeson_handcompiled.go", "packrat.go"]}
{"id": "C52", "title": "The grammar of rule texts compiles itself, and both versions compile the same grammars", "statement": "IntentionRules, the grammar of rule texts written as rule texts, is built by the hand compiled grammar NewJoeson; the result compiles every rule text to the same parser (or rejects it in the same way) as the hand compiled grammar, so grammars built with either are the same; and when it is used to compile IntentionRules again the result is the same grammar.", "quantifier": "for every text (rule or not) given to both grammars, and every list of lines built with both", "why_tests_cant": "TestBootstrap compiles one small grammar with the intention grammar; agreement of the two hand-maintained versions is a statement on all texts.", "anchors": ["joeson_intention.go: IntentionRules", "joeson_handcompiled.go: JoesonRules, NewJoeson", "grammar.go: GrammarWithOptionsFromLines, LazyGrammar", "line.go: getRule"]}
{"id": "C53", "title": "A grammar written as rule texts gives exactly the value that the texts say", "statement": "For every list of lines with rule texts, labels, captures and callbacks, the value that ParseString returns is the one obtained by applying the rules for sequences (array, map or single value), labels, optional elements, repetitions, lookaheads, choices, ranks and callbacks to the rule texts; callbacks get the value and the position where the rule ends, may replace it, reject it or panic.", "quantifier": "for every list of lines with distinct names and supported rule texts, every input text, every way of representing values and every callback that depends only on its arguments", "why_tests_cant": "Ties together compiling, labels and captures computed lazily over the whole grammar, types of sequences, memoisation and callbacks, for unboundedly many grammars and inputs.", "anchors": ["parser_sequence.go: calculateLabels, calculateCaptures, calculateType, parseAsSingle, parseAsArray, parseAsObject", "parser_existential.go", "parser_choice.go: prepare", "parser_pattern.go", "rule.go", "packrat.go: prepareResult", "grammar.go: postinit"]}
{"id": "C54", "title": "The README's rules of thumb about values hold", "statement": "Strings and rules whose name starts with an underscore are not captured in a sequence; a sequence with labels returns a NativeMap with these labels; a sequence of several captured values without labels returns a NativeArray; one with a single captured element returns the production of that element; an optional element is NativeUndefined or the production of the element.", "quantifier": "for every sequence of elements and every input it matches", "why_tests_cant": "Quantifies over all sequences; interaction of nested groups with labels and captures is easy to miss with examples.", "anchors": ["README.md:269-283", "parser_sequence.go:54-82", "parser_existential.go", "parser_choice.go: prepare"]}
{"id": "C55", "title": "StripAnsi gives back the text to which colours were added", "statement": "For every text p without escape characters and BEL, and every text a obtained from it by inserting the escape sequences of the functions Black, Red, ..., BoldWhite, Bold (nested in any way), helpers.StripAnsi(a) is p; StripAnsi leaves texts without escape sequences alone, and applying it twice changes nothing.", "quantifier": "for every text and every way of colouring parts of it", "why_tests_cant": "There is no test for StripAnsi; it depends on the preference order of a regular expression with nested repetitions and alternatives, on texts of any length.", "anchors": ["helpers/stripansi.go", "colors.go"]}
{"id": "C56", "title": "The printed form of a parser is a rule text for it", "statement": "String(parser), with colours removed, is a rule text that compiles to the same parser; in particular different parsers are printed differently.", "quantifier": "for every parser built from strings, references, sequences, choices, lookaheads, options, negations, repetitions with joins and bounds, and labels", "why_tests_cant": "Composes printing, colour removal and the whole packrat parse of the printed text for unboundedly many parsers; tests compare a few printed grammars.", "anchors": ["parser_*.go: String", "parser.go:34-42 prefix", "ast.go:70-77 String", "grammar.go:190-196", "helpers/helpers.go: Escape", "joeson_handcompiled.go"]}
{"id": "C57", "title": "Left recursive rules of a grammar written as rule texts are left associative", "statement": "A grammar written as rule texts in which rules begin with themselves, like E: E '-' N | N, is built, and ParseString gives the value of the longest match grown from a failing first attempt: for 'a-b-c-...' the value nested to the left, whatever the length of the text. The value is determined by the texts, and is that of C53 for grammars without left recursion.", "quantifier": "for every grammar of rule texts with direct left recursion, every text, every representation of values and callbacks", "why_tests_cant": "The one test of left recursion (Test_LeftRecursion) prints its result without checking it. The claim composes compilation of rule texts, linking, and the stages of packrat.go for chains of any length.", "anchors": ["packrat.go:150-300", "joeson_test.go:172", "examples/precedence/precedence_test.go", "README.md:1"]}
{"id": "C58", "title": "Options and names of a line", "statement": "For O(Named(n, text), options...) and I(Named(n, text), options...) the rule made has the name n; of each kind of option (callback, Debug, SkipLog, SkipCache) the last one given counts, in any order and number, and each kind is independent of the others. Options of a line nested in another line are ignored. For a rule made of lines or of a parser only the callback counts. A line named a around a line named b panics. I without a name panics.", "quantifier": "for every name, text, list of options, and every compiler of rule texts", "why_tests_cant": "Lists of options are unbounded and mix four kinds; the tests give at most one callback, and never nest lines with options.", "anchors": ["line.go:15-72 lineInit", "line.go:106-207 rule2line, getRule", "line_o.go:36-61", "line_i.go:15-44", "parseoption.go"]}
{"id": "C59", "title": "The example calculator calculates", "statement": "The grammar of examples/calculator, built from its rule texts and callbacks, gives every arithmetic expression its value: products before sums, both left associative, parentheses, any spaces and tabs. Expressions with an integer that does not fit in 64 bits or with a division by zero panic. A text that is not an expression gets a ParseError at the end of an expression at its beginning (or nil if empty, or one of those panics), never a value. The value is the exact one unless an intermediate result overflows.", "quantifier": "for every expression of any length and shape, nested at most 340 deep, and every text with at most 340 opening parentheses; every regexp engine that finds blanks and integers", "why_tests_cant": "The test has 16 expressions; precedence, associativity and rejection quantify over all texts.", "anchors": ["examples/calculator/calculator_test.go:23-66", "grammar.go: GrammarFromLines, ParseString", "native_int.go:34-50"]}
{"id": "C60", "title": "Values know where they were matched, and remembering it changes nothing", "statement": "GetOrigin of a value of a parse (a map made from labels, or a value of a callback with an embedded Attr) gives the beginning and the end of the match of the rule that made it. Recording origins has no other effect: the answer of ParseString, apart from origins, and the callbacks called are those of a parse with values that remember nothing; the same for any other representation of values, and operations and callbacks with a state, whose visible results do not depend on it.", "quantifier": "for every grammar, text, options, callbacks and representation of values", "why_tests_cant": "No test looks at origins. A value is shared between the memo table and all attempts that use it, so what it remembers depends on the failed alternatives of the whole parse.", "anchors": ["packrat.go:276-286", "attr.go:9-49", "native_map.go:16-30", "ast.go:25-50"]}
{"id": "C61", "title": "Alternatives written as lines or with | are the same", "statement": "Two grammars that differ in how their alternatives are written answer the same: alternatives of a rule text separated by | or given as O lines of a rank, rules included at different places or in another order, texts laid out differently (blanks, redundant parentheses, + for *{1,}), the first line a rule or a reference to an included rule, a callback on the rule or on each of its alternatives, if it never rejects, other names (or none) for alternatives that no text mentions. This includes grammars with left recursive rules. A callback that rejects is not the same on a rule and on its alternatives.", "quantifier": "for every pair of grammars related in this way (at any depth of nested ranks), every text, all values and callbacks; rules nested at most 512 deep", "why_tests_cant": "examples/precedence claims it (\"totally equivalent\") and tests one text. The two forms take different paths: one parser_choice against a rank of unnamed memoised rules, inside a rule that is grown.", "anchors": ["examples/precedence/precedence_test.go:181-206", "parser_rank.go", "line_o.go", "parser_choice.go", "packrat.go:140-250"]}
{"id": "C62", "title": "Left recursion nests operations to the left, right recursion to the right", "statement": "In examples/precedence, chains of + and - are nested to the left by the grammar with the rule Expr ( _ AddOp _ Glyph )* | Glyph, written with | or as lines, and to the right by the one with the rule Expr ( AddOp Expr )* | Glyph; from two operations on these are different values. None of them panics.", "quantifier": "for chains of any length with any blanks (to the right: up to 1000 operations, without blanks), every regexp engine that finds blanks and glyphs", "why_tests_cant": "The test parses 3-2-1. That the growing of a left recursive rule stops at the right round for every length is an induction over rounds of the engine.", "anchors": ["examples/precedence/precedence_test.go:53-206", "packrat.go:140-250"]}
{"id": "C63", "title": "The VideoGame grammars of the README look up games", "statement": "The rank grammars of README (examples 2 to 5) give for a number that does not begin with 0 the first game of the database with that number, for a title in double quotes the first game with that title, and example 5 for bestIn: and a year from 1900 to 2199 the first game of that year; the not-found entry if there is none, and a panic if the number does not fit in an int. Example 1, which README presents as the same with a choice instead of a rank, looks titles up likewise but labels only the first digit of a number: it gives the game whose number is the first digit. No other text is understood: every other text is a parse error, or a panic if it begins with a number that does not fit in an int (examples 2 to 5); example 1 never panics.", "quantifier": "for every database and every text of any bytes, every number of any length, every title of any characters other than the double quote, all years and blanks; every regexp engine whose classes find what they should", "why_tests_cant": "The tests parse 1, 73264983242 and \"Doom\" in all examples. 1 has one digit, and no game has the number 7, so the error of example 1 is not seen.", "anchors": ["README.md:293-375", "examples/tests_from_readme/readme_02alternation_test.go:38-130"]}
{"id": "C64", "title": "Repetitions with and without separators match what they say", "statement": "'x'*, 'x'+, 'x'{m,n}, 'x'*'y', 'x'+'y' and 'x'*'y'{m,n} match exactly the texts x y x y ... x in which x is found a number of times between the bounds, and the value is the list of the x. The README says instead that 'a'*'b' parses aaa and aabababa, that 'a'+'b' parses abaaaba, and that 'a'*'b'{1,2} parses aaaa and aaabaaa, the braces repeating the whole: the code does not. A maximum of 0 or 1 counts as 2.", "quantifier": "for all strings x (not empty) and y, written with or without escapes, all bounds, all texts", "why_tests_cant": "The tests have a few texts for fixed patterns. That no other text is accepted, and that bounds count matches and not bytes or repetitions of the whole, needs all texts.", "anchors": ["README.md:134-146", "parser_pattern.go:84-126", "joeson_handcompiled.go"]}
{"id": "C65", "title": "Two levels of precedence: trees, parentheses and unary operators", "statement": "The grammars of examples/precedence with the rules Expr, Term and Factor give for an expression the tree of its operations, * and / before + and -, nested to the left. The first of them (161) does so for every expression without blanks, also with operations in parentheses. The other two (210 and `rules`, 226) have growMoss as the callback of Factor: they give the tree, with blanks around operators, if no operation is in parentheses, and panic if one is, as in (a+b)*c; (a) works. `rules` makes of a unary operation an array and reads no further, and panics on (-a). With `Term ( _ AddOp _ Expr )*` sums are nested to the right.", "quantifier": "for all expressions of any length with up to 200 parentheses in each other, all blanks; chains of up to 301 products for the last; every regexp engine whose classes find what they should", "why_tests_cant": "The tests parse 3-2-1, a + b, a + b - c and a*m/n + x - y + z + b*c: no parentheses and no unary operator, though the grammars are there to show them.", "anchors": ["examples/precedence/precedence_test.go:74-110", "examples/precedence/precedence_test.go:161-169", "examples/precedence/precedence_test.go:210-276"]}
{"id": "C66", "title": "The reader of the Lisp example", "statement": "For every expression made of strings, integers, words, operator symbols and lists, with any blanks around it and any blanks (at least one) between elements, the grammar of examples/lisp-repl gives the expression with the values of its parts: strings as written, integers converted to float64. If an integer does not fit in 64 bits the parse panics. Only one expression is read, what follows is reported as unparsed. Elements of lists that are not separated by blanks make the parse fail, even ((a)(b)). A line of the prompt that is not in parentheses means the same as in parentheses, unless its first element is a list. Conversely every text that gives a value is such an expression, read in one way, and reading panics only for a number that does not fit or for lists nested too deeply.", "quantifier": "for all texts (any bytes); all expressions nested up to 500 deep, all blanks, all conversions of integers; every regexp engine whose classes find what they should", "why_tests_cant": "The tests read about thirty fixed lines. That nothing in any nesting, spacing or string content is confused (a word that starts like a number, - as sign or as operator, >= or >) needs all expressions.", "anchors": ["examples/lisp-repl/grammar.go:16-30", "examples/lisp-repl/expr.go", "examples/lisp-repl/main.go"]}
{"id": "C67", "title": "What the machine of the Lisp example computes", "statement": "Arithmetic, comparisons (of neighbours), and, or and if, in any nesting and under all their names, give their value and leave the machine as it is. if, cond, and, or evaluate nothing beyond what decides. After (define (f x ...) body) a call of f is the evaluation of body with the arguments, as written, in place of the parameters; another number of arguments panics; other names keep their meaning. The factorial of main_test.go gives n! for all n for which arithmetic is exact. An alias is its function, aliases always point to functions. (car (cdr ... l)) is the element of l. Against the comments: not does not negate, (list? (+ 1 2 3)) is true, (and ()) and (or ()) never return, (car ()) and (cdr ()) index out of range.", "quantifier": "for all expressions, definitions, arguments and numbers, all machines in which the built-in names have not been redefined (or any that has been reached, for aliases), all operations on float64", "why_tests_cant": "The tests evaluate some fifty fixed lines with one machine. Nesting, recursion depth, what is not evaluated and what never returns cannot be settled by samples; not, and with an empty list, and list? of a call are not tested at all.", "anchors": ["examples/lisp-repl/machine.go", "examples/lisp-repl/machine_internal.go", "examples/lisp-repl/machine_primitives.go", "examples/lisp-repl/main_test.go:94"]}
{"id": "C68", "title": "Well formed grammars answer every text", "statement": "If nothing that can match nothing is repeated, no rule comes back to itself before something has been matched, and every rule mentioned exists, then every text has exactly one outcome according to the rule texts (a value up to some place, no match, or the panic of a callback), and ParseString gives it, or panics because more than 1024 rules are nested. If no rule comes back to itself at all, it always gives it: it returns the value v if and only if the texts say v, and panics if and only if they say that a callback does.", "quantifier": "for all well formed grammars of rule texts, all callbacks, all texts (also ones that are not UTF-8)", "why_tests_cant": "That a parser neither hangs nor gives a value for texts that nobody thought of is a statement about all texts; tests only show it for a few.", "anchors": ["packrat.go", "parser_pattern.go", "parser_choice.go", "parser_sequence.go", "parser_ref.go", "grammar.go"]}
{"id": "C69", "title": "The color grammar of the README accepts exactly its colors", "statement": "The texts to which ParseString gives a value are exactly: red, green, blue, rgb(a, b, c) with blanks before and inside the parentheses and at least one blank or comma between the numbers, hsl(a, b%, c%) with blanks around, where numbers do not begin with 0 and fit in an int; the value is the color with these components (for hsl always the same one, as hslToRgb is a stub). It panics exactly when a number that does not fit in an int is met where a number is expected, whatever follows. Everything else is a parse error. Hence no component of an rgb color is 0, no text gives black, and rgb(0, 0, 0) is an error.", "quantifier": "for all texts (all byte strings), all values", "why_tests_cant": "The README parses five texts. That nothing else is accepted, that numbers above 255 are, that a 0 never is, and which texts panic are statements about all texts.", "anchors": ["README.md:390", "examples/color/color.go:41"]}
{"id": "C70", "title": "A parse error shows the text around the error, divided into OK, Parsing, Suspect and Unknown", "statement": "The message of the error returned by ParseString for an incomplete match shows four consecutive pieces of the text, as its legend says: OK, the lines up to where the match ended; Parsing, from there to the reported position; Suspect, from there to the furthest position at which a rule was tried; Unknown, the lines from there on. What holds exactly: for ASCII texts Parsing and Suspect are these pieces, but OK and Unknown are whole lines, so they repeat each other and the other two pieces; for a text of one line OK and Unknown are always both the whole text. For other texts Parsing and Suspect show as many code points as there are bytes.", "quantifier": "for all grammars as built by the library, all texts, all options, all callbacks, every parse that returns an error", "why_tests_cant": "No test looks at the pieces of a message. Which bytes they show for every cursor, success and attempt position is a statement about all texts and grammars.", "anchors": ["grammar.go:122", "codestream_rune.go:184", "codestream.go:50"]}
{"id": "C71", "title": "Grammars with left recursion answer every text", "statement": "If nothing that can match nothing is repeated, every rule mentioned exists, and before something has been matched a rule comes back only to itself (directly or through its own unmentioned alternatives, not through another rule), then every text has exactly one outcome: growing a left recursive rule always ends, with a value up to some place, no match, or the panic of a callback. ParseString gives this outcome, or panics because more than 1024 rules are nested; a value it returns is the one that the texts say.", "quantifier": "for all such grammars of rule texts, all callbacks, all texts (also ones that are not UTF-8)", "why_tests_cant": "Left recursion is grown in a loop that could go on for ever on some text or with some callback; tests only show that it ends on a few.", "anchors": ["packrat.go", "parser_ref.go", "parser_choice.go", "parser_rank.go", "grammar.go"]}
{"id": "C72", "title": "No rule is evaluated twice at the same place", "statement": "A parse evaluates at most as many rules (the counter of the context) as there are rules times positions of the text, whatever the callbacks, as long as all rules are memoised: the work grows linearly with the text. Parts of rules with a callback or a label of their own are counted too, and are not memoised: with them the bound is polynomial. True when no left recursion is met, in particular for every text of a grammar without left recursion. False for left recursive rules: that such a rule failed is not remembered, and a grammar of one rule evaluates it 2^(n+1)-1 times on a text of length n.", "quantifier": "for all built grammars, texts, callbacks, trace options; for all n that the rule stack allows", "why_tests_cant": "It is a bound on all executions of all grammars; the exponential behaviour shows only on texts that fail.", "anchors": ["packrat.go: loopify, prepareResult", "parsectx.go: getFrame, Counter"]}
{"id": "C73", "title": "SkipCache changes how often a rule is evaluated, not what is parsed", "statement": "The option SkipCache of a rule, documented as an option about caching, does not change the outcome of a parse. True for texts with a PEG outcome (C23). False for left recursive rules: left recursion is detected through the memo entry, and if the grammar begins with rules that have the option and begin with each other, then every text, the empty one and every correct one included, exhausts the rule stack and panics.", "quantifier": "for all grammars, sets of rules with the option that begin with each other, texts, callbacks, parse options without tracing", "why_tests_cant": "No test combines the option with left recursion; that no text at all can be parsed is a statement about all texts.", "anchors": ["packrat.go: loopify (lines 86-97)", "parseoption.go: SkipCache", "parsectx.go: stackPush"]}
{"id": "C74", "title": "Rule texts can be rewritten by the usual laws without changing what is parsed", "statement": "Rewriting rule texts anywhere and in either direction by: a | (b | c) = a | b | c; dropping a repeated alternative, or one beginning with an earlier one; a b | a c = a (b | c); a (b c) = a b c; 'x' 'y' = 'xy'; a? = a | ''; ?a = !(!a); !(a | b) = !a !b; a+ = a a*; a* = (a+)?; a+j = a (j a)*; a{n,n} = a a ... a (n from 2 on), gives a grammar whose parser agrees with the first about every text: a value of both, nil of both, or a ParseError of both at the same place. Recursive rules included. Choices do not commute, a sequence does not distribute over a choice before it, a? and a*{,1} differ, and a* a never matches anything.", "quantifier": "for all grammars without labels and with good names, all sequences of rewritings, texts, callbacks, parse options without tracing; rules nested at most 1024 deep", "why_tests_cant": "A test compares two grammars on some texts; that a refactoring is safe is a statement about all grammars and all texts.", "anchors": ["parser_choice.go: parse", "parser_sequence.go: parse", "parser_pattern.go: parse", "parser_not.go, parser_lookahead.go, parser_existential.go", "README.md: rule syntax"]}
{"id": "C75", "title": "Building a grammar takes work proportional to its rule texts", "statement": "GrammarFromLines visits every parser of the grammar a bounded number of times. False: the pass that removes choices with a single alternative calls itself on every child, and is then called on every child again, so a parser is visited twice as often as the one it is inside, 2^k times at depth k. The exact number is proved for all grammars of rule texts; a text of 93 characters, nested 30 deep, takes 8589934591 visits.", "quantifier": "for all grammars of rule texts with good names, all texts of the supported syntax", "why_tests_cant": "The outcome is right; only the growth with the depth shows it, for which tests would need deep texts and a count.", "anchors": ["grammar.go: postinit (lines 221-255)", "walk.go: Walk"]}
{"id": "C76", "title": "A rule that calls itself through a helper rule is read like one that calls itself directly", "statement": "With rules like E: Sub | N and Sub: E '-' N, in which a rule begins with a helper rule that begins with that rule, the text has the value that the rules say: the helper is part of the rule that calls it, the recursion is grown from a failure to the longest match and is left associative. If a text has a value then which rules are taken to be helpers makes no difference to it.", "quantifier": "for all grammars of rule texts with good names, choices of helpers (rules mentioned by one text only, not alternatives), texts with a value, callbacks, parse options without tracing; rules nested at most 1024 deep", "why_tests_cant": "Tests try some indirectly left recursive grammars on some texts; that the memo entries of the helpers never interfere is a statement about all of them.", "anchors": ["packrat.go: loopify", "parsectx.go: wipeWith, restoreWith", "parser_ref.go: parse"]}
{"id": "C77", "title": "What the Lisp example prints can be read again", "statement": "The text that the String method of an expression gives, without the colours, is read by the grammar of the example as the same expression. False for numbers: %f prints a decimal point, the grammar has none, so no expression that contains a number is read back. Expressions of strings, operators and lists are. The String method of a list by itself writes commas between the elements, which the grammar does not have: nothing of two or more elements that it prints can be read.", "quantifier": "for all expressions of the example, whatever %f prints as long as it is an integer with digits after a point; lists nested at most 500 deep", "why_tests_cant": "A round trip over all nested expressions; tests try some.", "anchors": ["examples/lisp-repl/expr.go: String", "examples/lisp-repl/list.go: String", "examples/lisp-repl/grammar.go", "examples/lisp-repl/main.go: colorParen, quoted"]}
{"id": "C78", "title": "The Lisp example answers every line it is given", "statement": "The loop prints, for each line of the input, the value of the expression on it, evaluated with what the lines before have defined, or that it is not an expression. False as stated: only lines that are typed, so that no read goes past a newline, all get there; every other line of a file that is read at once is lost, and a last line without a newline is. What gets there is answered as described, and the loop ends with the input or with the first line that the machine cannot evaluate or the parser panics on; 'should not happen' never happens.", "quantifier": "for all inputs, divided into reads in any way, all states of the machine", "why_tests_cant": "It is about all inputs and all ways of dividing them, and about sequences of lines of any length; the loop has no tests.", "anchors": ["examples/lisp-repl/main.go: main", "grammar.go: ParseString"]}
{"id": "C79", "title": "The table of rules shows the rules", "statement": "With TRACE=grammar a table is printed after a grammar is built, with a row for every rule in the order of their numbers; what is in the columns, at their fixed places, is the name, number, type, whether it is captured, label, labels, parent and text of the rule, if each fits its column. Labels are those of the rule, of its parts and of the rules it merges. Printing does not change the grammar, and the column of labels is empty exactly for the rules the library takes for rules without labels. Printing panics only if the labels of a rule cannot be found (a rule @:name with an undefined name, which builds without printing); never for grammars written as supported rule texts.", "quantifier": "for all grammars, names, labels and texts of rules", "why_tests_cant": "It is about every grammar and every row; tests look at no table.", "anchors": ["grammar.go: PrintRules, postinit", "helpers/helpers.go: PadLeft, BoolToString, TypeOfToString", "rule.go, parser_sequence.go, parser_existential.go, parser_ref.go: labels_"]}
{"id": "C80", "title": "What a grammar sees of Go code is its tokens", "statement": "Two Go sources with the same tokens, whatever their layout and comments, give token streams with the same text for the grammar, and parsing them with any grammar has the same outcome. Conversely sources with different tokens are seen as different texts: the tokens can be read off the text. (False for operators next to each other; true if no two operators, brackets, commas or semicolons are adjacent.)", "quantifier": "for all scanners, sources, grammars, options, callbacks and histories of scan errors", "why_tests_cant": "It compares all pairs of sources and all grammars; tests parse single sources.", "anchors": ["codestream_token.go: TokenStreamFromGoCode, NewTokenStream", "grammar.go: ParseTokens"]}
{"id": "C81", "title": "A parse error in tokenised code points at the original code", "statement": "When ParseTokens fails, the message shows the place of the error in the text the tokens were found in: its offset, line and column, and the text around it. (False: the offset is one of the joined tokens, Parsing and Suspect show joined tokens, and in the last token line and column are those of a place further on. True: line, column, Print, OK and Unknown, for places before the last token.)", "quantifier": "for all grammars, texts, contiguous tokens, options and callbacks", "why_tests_cant": "It is about every error of every grammar and every layout of the tokens; the tests print single messages.", "anchors": ["grammar.go: parse, ParseTokens", "codestream_token.go: coords, PosToLine, PosToCol, Print, PeekLines, PeekRunes"]}
{"id": "C82", "title": "Errors reported as the README recommends come out as they are", "statement": "If a callback panics with a ParseError, parseX (README) returns this error, whatever rules are around it, and no other alternative is tried; a result or a parse error of the library is returned as it is; other panics stay panics. The README's rule of octal numbers, used with it, gives the byte of three octal digits and the error of anything else. (The last is false: its text is not a rule, and with that corrected the digits are read as decimal ones.)", "quantifier": "for all grammars of rule texts, callbacks, texts and ParseErrors; for the octal rule all texts", "why_tests_cant": "The code is in the README only, and the claim is about errors raised at any depth of any grammar.", "anchors": ["README.md: Error handling", "parsectx.go: Error", "parseerror.go: ParseError", "native_int.go: NewNativeIntFrom", "joeson_handcompiled.go: ESC1"]}
{"id": "C83", "title": "What is set on a node is got back", "statement": "GetOrigin and GetLine of a node return what SetOrigin and SetLine were given last, GetAttribute what SetAttribute was given, and a node may be any type that embeds *Attr. (False: the name of the rule is lost, SetLine clears start and end, native types keep nothing, attributes are not implemented, and a nil *Attr makes the parse panic.)", "quantifier": "for all histories of calls, origins, lines, keys and attributes", "why_tests_cant": "It is about every history of calls; no test calls GetOrigin.", "anchors": ["attr.go: SetLine, SetOrigin, GetOrigin, SetAttribute, GetAttribute", "native_string.go, native_int.go, native_array.go: SetOrigin, GetOrigin", "packrat.go: prepareResult"]}
{"id": "C84", "title": "The work of a parse", "statement": "As a packrat parser promises, the work of a parse, measured in calls of the method parse of any parser, is bounded by the number of rule evaluations times the size of the grammar, and without left recursion it is proportional to the length of the text. (The second is false: only rules are memoised, not their parts, so repetitions inside a rule make it polynomial, the degree is at most one more than the depth of nested repetitions.)", "quantifier": "for all grammars whose repetitions consume input, all callbacks, options and texts", "why_tests_cant": "It is about the growth with the length of all texts and about every grammar.", "anchors": ["packrat.go: wrap, loopify", "parser_pattern.go: parse", "parser_choice.go: parse", "parser_sequence.go: parse", "README.md: Packrat parser"]}
{"id": "C85", "title": "Names, numbers and unused rules do not matter", "statement": "Renaming the rules of a grammar everywhere, listing them in another order, or adding rules that nothing mentions changes no parse: the same value or error message, the same callbacks at the same places in the same order, the same panic, the same non-termination. (Values must not look at the rule name of their origin.)", "quantifier": "for all grammars, also left recursive, all renamings that are injective on rules, all added rules, all callbacks, options, tracing and texts", "why_tests_cant": "Rule numbers index the memo table and the wipe masks, and are scanned for the error message; that none of this can be observed is about every pair of grammars and every text.", "anchors": ["grammar.go: newGrammarFromLines, ParseString", "packrat.go: wrap, loopify, getFrame, wipeWith, restoreWith", "parser_ref.go: parse", "parsectx.go: frames"]}
{"id": "C86", "title": "Grammars may share parsers", "statement": "Building a grammar changes no grammar built before. A Parser that is used in one grammar, a Grammar for example, can be given to the lines of another.", "quantifier": "for all grammars built one after the other in a program, from any parsers", "why_tests_cant": "The numbering writes into the objects it visits; which sharing is harmless is about every way of building two grammars.", "anchors": ["line.go: getRule", "grammar.go: postinit, forEachChild", "walk.go: Walk", "parser.go: IsRule"]}
{"id": "C87", "title": "The life of a Grammar", "statement": "A Grammar made by GrammarFromLines is ready, and CountRules counts its rules, whatever is parsed with it, until Bomb is called. After Bomb, and for a grammar of no lines, every parse answers nil for the empty text and a ParseError at the beginning otherwise, calls no callback and never panics.", "quantifier": "for all lines, all sequences of ParseString and Bomb, all texts, options, tracing and callbacks", "why_tests_cant": "It is about every sequence of calls and every text.", "anchors": ["grammar.go: Bomb, IsReady, CountRules, ParseString", "parser_rank.go: newEmptyRank, parse"]}
{"id": "C88", "title": "Regular expressions and classes in rule texts", "statement": "A class [...] of a rule text, written with characters, escaped characters and ranges, perhaps after ^, reads one character, and exactly the characters it names. /re/ matches at the cursor iff a beginning of the rest of the text belongs to the language of re, wherever else re would match; what it takes is such a beginning; a repeated class takes all characters there are. The regular expressions of the grammar of rule texts and of the examples find what the properties about those assume.", "quantifier": "for all classes of that syntax, all regular expressions of the modelled part of Go's syntax, all texts and positions", "why_tests_cant": "There are infinitely many classes, expressions and texts.", "anchors": ["parser_regex.go: newRegexFromString, parse", "codestream_rune.go: MatchRegexp", "joeson_handcompiled.go: i_(Named(WORD)), i_(Named(INT)), i_(Named(.))"]}
{"id": "C89", "title": "What tracing prints", "statement": "For a grammar, a text and given callbacks there is one complete trace: every attempt at a rule has an opening line and a closing line, properly nested, indented by the number of attempts that are open, and the closing line shows the value the attempt gave. Whatever is traced (TraceOptions, Debug and SkipLog given to the call, Debug of rules), a parse that returns prints exactly the lines of it whose rule is shown and which are on the line of FilterLine, if set. Without FilterLine what is printed is therefore nested. Printing changes nothing else. The same holds of ParseTokens, where the line is that of the original text.", "quantifier": "for all grammars, texts, tokens, callbacks, trace options, options of the call and choices of rules with Debug", "why_tests_cant": "The library prints to the terminal only, and the claim compares all ways of tracing every parse.", "anchors": ["packrat.go: loopify", "parsectx.go: log, String", "parseoption.go: Debug, SkipLog", "traceoptions.go"]}
{"id": "C90", "title": "Calls of one Grammar at the same time", "statement": "When calls of ParseString or ParseTokens on one Grammar overlap (a callback that parses with the grammar that runs it, or calls from several goroutines), each call gives the outcome, values, callbacks and position it gives alone, whatever Debug the others were given. Calls inside one another leave TraceOptions.Stack as it was and see what they set themselves; calls without Debug never change it. Calls of Get on a shared Lazy return the value of its function.", "quantifier": "for all grammars, texts, tokens, callbacks, options, and all orders in which the steps of the calls come", "why_tests_cant": "The orders of the steps of overlapping calls cannot be enumerated, nor forced by a test.", "anchors": ["grammar.go: parse, ParseString, ParseTokens", "packrat.go: loopify", "parsectx.go: newParseContext", "helpers/lazy.go: Get"]}
{"id": "C91", "title": "A token stream can be parsed from any position", "statement": "ParseTokens on a stream whose position is n gives what ParseString gives on the joined token texts without their first n bytes: the same outcome, the same callbacks in the same order, and it stops at the same place, all positions being n more. Nothing before the position is looked at.", "quantifier": "for all grammars (left recursion included), token streams, positions, callbacks and values that do not record lines", "why_tests_cant": "The memo table, the frames on the stack and the stages of left recursion are all indexed by position; the parse must be invariant under moving all of them, for every run.", "anchors": ["grammar.go: ParseTokens, parse", "packrat.go: loopify, prepareResult, wipeWith, restoreWith", "parsectx.go: getFrame", "codestream_token.go: SetPos, MatchString, MatchRegexp"]}
{"id": "C92", "title": "An array is changed only by what is appended to it", "statement": "A NativeArray contains the elements it was made of followed by those given to its Append, whatever is done with other arrays and with the slices that Array() handed out; a slice got from Array() keeps its elements while more is appended to the array. False if an array is made of a slice that is still appended to elsewhere, if something is appended to a part of what Array() returned, or if its elements are assigned.", "quantifier": "for all programs that make arrays and slices, append to them, cut and clip them, and for all capacities that the Go runtime may choose", "why_tests_cant": "Whether two slices share memory depends on the capacities chosen by the runtime; a test sees one choice and one program.", "anchors": ["native_array.go: NewNativeArray, NewEmptyNativeArray, Array, Append, Get, Length", "native_map.go: Keys"]}
{"id": "C93", "title": "A NativeMap has a content of its own", "statement": "A NativeMap contains what the Go map given to NewNativeMap contained at that time, changed by its own Set calls and by nothing else; Keys lists exactly the keys that exist, and String does not panic. False if the Go map is used after it was given: then Keys and Get disagree, and String panics after a key was deleted.", "quantifier": "for all programs that make Go maps, change them, delete from them, give them to NewNativeMap and call Set", "why_tests_cant": "The content is held twice, in a map that may be shared and in a list of keys that is not; whether they agree depends on the whole history of all variables.", "anchors": ["native_map.go: NewNativeMap, NewEmptyNativeMap, Set, Get, GetOrPanic, Exists, Keys, String"]}
{"id": "C94", "title": "The message about a misplaced array shows its rules", "statement": "GrammarFromLines panics at a line that is neither O nor I, and the message shows an array of rules row by row: one row for every rule with a text, two around the rows of every rule with rules, in order, indented by depth, with O or I, name, text and a mark for a callback. Different arrays have different messages. False for rule texts that begin with the letter o: O(\"other\") and O(\"o ther\") are shown alike.", "quantifier": "for all arrays of rules at any nesting, with any names, texts, callbacks and options", "why_tests_cant": "The text is put together recursively with indentation, colours and a regular expression that rewrites what nested lines printed; whether something is lost depends on all texts and nestings.", "anchors": ["line_o.go:22-32", "line_i.go:24-34", "line_a.go:17-27", "line_s.go:15-17", "line_named.go", "line.go: lineInit, rule2line", "parser_rank.go:34-43"]}
{"id": "C95", "title": "Results can be compared by their printed form", "statement": "String() of native values writes arrays between brackets with commas and maps with their keys in order; two results with the same String() are the same value. False in general: an integer and the string of its digits, strings with a comma, an empty string in an array.", "quantifier": "for all values made of strings, integers, undefined, arrays and maps, at any depth", "why_tests_cant": "The tests of the library and of its users compare String() of results with an expected text; that this comparison means anything is a statement about all pairs of values.", "anchors": ["native_array.go:39-52", "native_map.go:58-71", "native_string.go:11", "native_int.go:55", "native_undefined.go:19", "parseerror.go:18-20"]}
{"id": "C96", "title": "What is printed about a position is about that position", "statement": "Print of a text shows the offset, the length, up to 20 bytes before and up to 40 bytes after the position. Print of a token stream prints what the original text prints at the place its position stands for. PrintDebug shows the same place as Print, and then the lines, the joined tokens and the tokens. False for PrintDebug of a token stream: it takes the offset in the joined tokens for an offset in the original text.", "quantifier": "for all texts, tokens and positions", "why_tests_cant": "Offsets are translated between two texts of different lengths and cut at both ends; a test shows a few positions in one text.", "anchors": ["codestream_rune.go:182-192", "codestream_token.go:258-296", "helpers/helpers.go:101-126"]}
{"id": "C97", "title": "Small conversions lose nothing", "statement": "SortIntKeys gives every key of the map once, in increasing order, whatever the order in which Go ranges over the map. NewNativeIntFromBool and Bool are inverse, and an integer is true iff it is not 0. The copy of trace options has all of them. Origins are printed alike iff start, end and name of the rule agree; colors of the example iff they are the same color.", "quantifier": "for all maps and orders of iteration, all 64 bit integers, all rule names", "why_tests_cant": "The order in which Go ranges over a map is random and differs from run to run; that different values print differently is about all pairs.", "anchors": ["helpers/mapsorter.go:7-14", "native_int.go:10-17", "native_int.go:53-54", "ast.go:47-49", "traceoptions.go:22-30", "examples/color/color.go:21-23"]}
