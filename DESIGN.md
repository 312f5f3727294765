# Formal model of grepsuzette/joeson

Lean 4.33.0 project in `lean/`. Properties are in `properties.jsonl`, the claim
status of each one in `MANIFEST.json`, mutation experiments in
`seeded/LOG.jsonl`.

## Trusted base

* Lean's kernel. No axiom is added, no `sorry`, no `native_decide`,
  no `bv_decide`. Every theorem depends on at most `propext`,
  `Classical.choice` and `Quot.sound` (`#print axioms`).
* The hand translation of the Go sources into Lean definitions. Every
  definition cites the file and the lines it transcribes.
* Go semantics used by the translation:
  * `string` is a list of bytes, `len` counts bytes; slicing and indexing out of
    range panic; a `for range` over a string decodes UTF-8 with one byte steps
    over malformed input. `utf8.DecodeRuneInString`,
    `utf8.DecodeLastRuneInString` and `strings.Builder.WriteRune` are modelled
    in full (`Verif/Model/Utf8.lean`).
  * `int` is modelled by unbounded integers, except in `strconv.Atoi/Itoa`
    where the 64 bit range is explicit. Texts are assumed shorter than 2^63.
  * `sort.Search`, `strings.Index`, `strings.Replacer` (byte replacer),
    `strings.Split`, `sort.Strings` are modelled by small functions.
  * `regexp.Regexp.FindStringIndex` is a parameter. The only assumption is
    `0 <= start <= end <= len`. `Model/Regexp` (C88) is a model of the part of
    `regexp` that rule texts use, to instantiate the parameter: it was written
    from the documentation and source of the standard library. Repetitions of
    something that can match nothing, `{n,}`, lazy repetitions, `$`, `\b`,
    flags, POSIX and Unicode classes and numeric escapes are left out
    (answered like an invalid expression).
  * `go/scanner` is a parameter (an arbitrary finite token sequence and
    arbitrary error reports).
  * A panic is a value of the model (`Except`/`Outcome`), never an undefined
    result.
* Not modelled: the Go memory model (the library starts no goroutine; calls made from several are modelled
  in `Model/Overlap` as steps that come one after the other, in any order), output to the terminal (`Print`; of tracing the colours and words), wall clock time, memory
  exhaustion.

## Layout

| Module | Models |
| --- | --- |
| `Model/Utf8` | Go's UTF-8 decoding and encoding |
| `Model/Helpers` | helpers/*.go |
| `Model/RuneStream` | codestream_rune.go |
| `Model/TokenStream` | codestream_token.go |
| `Model/Native` | native_*.go |
| `Model/Engine` | packrat.go, parsectx.go, parser_*.go |
| `Model/GrammarParse` | grammar.go (ParseString, ParseTokens, parse, error report), traceoptions.go fields read by them |
| `Model/Values` | native values as immutable trees |
| `Model/Heap` | native values with maps as shared mutable cells |
| `Model/TraceOptions` | traceoptions.go: reading the TRACE variable |
| `Model/Samples` | sample grammars for the `example`s (not from /repo) |
| `Model/Build` | line*.go, walk.go, rule.go, grammar.go postinit |
| `Model/BuildCost` | grammar.go 221-255: number of visits |
| `Model/Joeson` | joeson_handcompiled.go |
| `Model/Intention` | joeson_intention.go |
| `Model/Colors` | colors.go, helpers: StripAnsi |
| `Model/Print` | `String()` of parsers and grammars |
| `Model/PrintRules` | grammar.go PrintRules, labels of parsers |
| `Model/Calculator` | examples/calculator |
| `Model/Origins` | attr.go: values with the address of their `Attr` |
| `Model/Precedence`, `Model/Precedence2` | examples/precedence |
| `Model/Readme` | the VideoGame grammars of README.md, examples/tests_from_readme |
| `Model/LispExpr`, `Model/Lisp`, `Model/LispMachine` | examples/lisp-repl: expressions, grammar and callbacks, machine |
| `Model/Objects` | line.go getRule and grammar.go postinit on parsers as objects |
| `Model/Lifecycle` | grammar.go Bomb, IsReady, CountRules |
| `Model/Regexp` | parser_regex.go newRegexFromString, with the part of Go's `regexp` it needs |
| `Model/TraceLog` | packrat.go loopify and parsectx.go log, with the lines that are printed |
| `Model/Overlap` | grammar.go parse, packrat.go wrap and helpers/lazy.go Get, when several calls use one Grammar |
| `Spec/*` | independent specifications (PEG big step relation, JavaScript slice, code point lists, ordered maps...) |
| `Proofs/*` | helper lemmas |
| `Props/*` | one property theorem group per file, with concrete instances beside each theorem |

## How the engine is modelled

The engine is one interpreter `run : fuel -> Node -> State -> Outcome`. A node
carries the attributes of `rule` that parsing reads (id, name, label, capture,
callback, skipCache, debug, whether the parent handles labels). The state has
the cursor, a heap of memo frames (frames are pointers in Go: the stack may hold
a frame that was wiped from the table, so addresses are explicit), the
`[pos][id]` table of addresses, the rule stack, the counter, the loop stack, a
heap for mutable Go values, and the list of callback invocations made so far
(an observable of user code). Values and callbacks are abstract operations, so
engine theorems hold for any value representation. Fuel only bounds recursion:
running out of it is a distinct outcome, results are proved independent of the
amount of fuel, and "terminates" means some amount suffices.

The PEG specification is an inductive big step relation that knows nothing of
memo tables, frames, stacks or stages. It is indexed by the rule nesting depth
so that the 1024 slot stack can be related to it.

## Per property plan

| Id | Plan |
| --- | --- |
| C01 | invariant over all operation histories of the RuneStream model |
| C02 | lineStarts = {0} + offsets after newline bytes, for arbitrary bytes (a newline byte is never swallowed by a multi byte rune), binary search spec, counting spec |
| C03, C05 | decision logic against a prefix / leftmost match spec |
| C04 | against the decoder: moved distance = width of the first code point |
| C06 | found case proved against a first occurrence spec; the not found promise of the interface is violated, witness proved |
| C07, C16 | code point lists, encode/decode round trips in both directions |
| C08 | proved for in range arguments against a split-by-newline spec; out of range arguments panic, witness proved |
| C09 | proved for all but the last token; last token is wrong, witness proved |
| C10 | induction over scanner tokens |
| C11 | state machine over the package variable; both halves violated, witnesses proved |
| C12 | both streams refine one cursor, engine runs on the cursor |
| C13, C14, C15, C17, C49 | direct models and proofs |
| C18, C20, C21 | state machine / structural induction / digit arithmetic |
| C19 | violated (inverted); exact behaviour and witness proved |
| C22, C23, C24 | refinement of the PEG relation with a memo table invariant; rules in progress have no derivation at the current depth, hence no recursion can be detected |
| C25 | fuel bound from stack capacity, remaining input and guarded repetitions; divergence witness for unguarded repetitions |
| C26, C27 | one invariant over all executions of all grammars |
| C28 - C32 | engine level theorems about arbitrary sub parsers; bounds violation for max <= 1 proved |
| C33, C34 | loop invariant; then an unbounded theorem for direct left recursion; then for left recursion through the alternatives of a rank: `Spec/LeftRank` (`gpeg`: private rules are parsed in the context of their owner), `Proofs/LeftRank*`: an invariant on the memo table where entries of private rules are valid for the present seed of their owner, or are in its wipe mask |
| C35, C36 | on the model of Grammar.parse; nil on failing empty input is a witness against the first reading |
| C37, C38 | state machine of parse calls; violations as witnesses |
| C39, C50 | simulation between runs with different trace options; panics caused by tracing as witnesses |
| C40 | panics past 1024 nested rules: witness for every deeper nesting |
| C41, C48 | violated, witnesses by evaluating the model; positive theorems for the unaffected class |
| C42 | `Model/Heap`: maps as cells of a store that `Set` and `merge` write. Violated with `&`, and with `@` before any label of the sequence: witnesses. Otherwise a simulation (`Proofs/ValueSim`) with immutable trees: the cells of unfinished sequences are private to them. `Spec/OwnMaps`: the same condition on rule texts; it reaches the built grammar by `Forest` and `Fit`, so C53 and C57 hold of the library's maps (`Props/RealMaps`). |
| C43, C44 | model of line compilation and the walks |
| C45 | engine level |
| C46 | model of the TRACE parser |
| C47 | model of the hand compiled grammar as a concrete grammar; derivations in the PEG relation, transported by C22 |
| C51 | `Spec/Lang`: parsing expressions and their matching relation on texts, lines of a grammar; the built grammar implements the lines (induction on lines for `rankFromLines`, `connect`, the passes of `postinit`), derivations are translated to the PEG relation, then C22 and C47. `Proofs/Lang5`: nothing in the building panics. `Spec/Spliced`: rules merged by `@:name`; they are texts with labels and do not come back to themselves, so the labels that references contribute are found after finitely many steps (`Proofs/Spliced`) |
| C52 | `Model/Intention`: the lines of joeson_intention.go with their texts. Their trees are of the supported syntax (checker `okB`), so C47 gives what they compile to; the grammar is evaluated by the kernel. The two grammars differ in that the hand compiled one contains `LABEL`, `WORD`, `_`, ... in place of references (`Inl`): a simulation on the PEG relation shows equal meanings, two rules deeper. No left recursion by a checked analysis (`noLeftRecB`), so every text has a meaning; then C22. The name of the grammar is the one of joeson_test.go |
| C53 | `Spec/Values`: expressions with labels, which are kept, form of a sequence, relation `Yields` on texts. Invariant `Fit` of parsers through the stages of `postinit` (labels, captures, types), trees with callbacks, then `Yields` is translated to the PEG relation by induction (`yields_does`), then C22 and C47. `Props/Merged`: rules merged by `@:name`, and joeson_intention.go as an instance. Maps are values here; the library's are mutable, C42 says when that makes no difference. |
| C54 | On `Yields`: induction on the elements of a sequence, for sequences without groups; witnesses for groups, evaluated with `vrun` (sound for `Yields`). `C54_any_sequence` gives the value of every sequence, groups and merged rules included; `C54_merged_rules` says that `x:A @:R` has its own labels and then those of `R`. |
| C55 | `Model/Colors`: colour functions, backtracking matcher of regular expressions (preference order of Go), `ReplaceAllString`. `Spec/Colors`: inductive relation "coloured version of". Induction on it; the matcher is run symbolically on each escape sequence followed by any text. `C55_source` (`Proofs/Regexp5`): the byte expression of the model and what the text of the constant compiles to have the same possibilities in the same order on every text, and removing by characters or by bytes is the same. |
| C56 | `Model/Print`: `String()` of every parser. `Spec/Print`: inductive predicate on the parsers whose printed form needs no other parentheses. Induction builds a tree of `Spec/RuleText` with the printed text, then C55 and C47. |
| C57 | `Spec/LeftText`: relation `YieldsL` on texts, as `Yields` with the rule being tried, where it began and its last value. A rule that no text mentions is part of the rule it is written in. `Proofs/LeftMeans`: a relational form of `gpeg` (Spec/LeftRank); `Proofs/Forest`, `Forest2`: every built rule is in at most one rank, so the unmentioned alternatives are private (`privacyOf_ok`); `yieldsL_does`: induction from one to the other; then C34 with ranks and C47. `C57_minus_is_left_associative` by a derivation for chains of any length; `C57_minus_only`: derivations for all other texts too (`Proofs/ChainOnly`), and each text has one outcome. |
| C58 | `Props/Lines`: specification `lastCb` etc. (last element of that kind); the fold of options by induction, then evaluation of `getRule` on the nested line that `Named` makes. Finding: options of a nested line are lost (line.go:166 overwrites them). |
| C59 | `Spec/Calculator`: left nested trees of expressions with layout, their text, value modulo 2^64 and exact value. `Model/Calculator`: the callbacks and the seven rule texts. Every tree: mutual induction giving a derivation of C53's meaning with the value of the tree, depth 3·nesting + 4. Every text: induction on its length, one derivation per rule whose result carries a tree. Both are carried to `ParseString` by C53. The regexps `[ \t]` and `^-?[0-9]+` are hypotheses about what is found at the beginning of a text (met by two regexps in the file). |
| C60 | `Model/Origins`: values with the address of an `Attr`, `SetOrigin` writes to a store. `Spec/Seen`: operations on values seen through a function. Simulation (`Proofs/ValueSim`) between a parse and what is seen of it. The first part is false: witness evaluated in the kernel. |
| C61 | `Spec/Same`: relation between grammars as texts. `Proofs/Same`: simulation in both directions between derivations of `YieldsL`; then C57 for both. `Proofs/Rename` and `Proofs/Order`: renaming, reordering and other layouts are instances. The condition on callbacks is needed: witness. `Props/DeepMore`: texts nested to any depth, any tracing. |
| C62 | `Model/Precedence`: `growMoss` and `binaryexpr`. `Spec/Precedence`: chains, nested to the left or right. Derivations in `YieldsL` by induction on the chain, then C57 and C61. `Spec/ChainOnly`, `Proofs/ChainOnly`: where chains end, so what is made of any text; only chains have values. |
| C63 | `Model/Readme`: the callbacks and lines of the examples, the database a parameter. `Spec/Readme`: numbers, titles, years and the first game with a property. Derivations in `Yields` by induction on digits and characters, then C53. Backwards: `Proofs/Invert`, `Proofs/Until` (classes that leave out one byte, on any bytes), `Proofs/Readme2`, then C68: exactly these texts. |
| C64 | `Spec/Joins`: the texts `x (y x)^n`. Derivations in `Yields` by induction on the number of matches, for every string, every separator and all bounds; then C53. |
| C65 | `Model/Precedence2`: the grammars. `Spec/Precedence2`: expressions as trees nested to the left, their text, and whether an operation is in parentheses. Derivations in `Yields` by induction on the expression, for both levels at once; then C53. |
| C66 | `Model/Lisp`: callbacks and rule texts, the conversion of integers to `float64` a parameter, the three regular expressions hypotheses on what they find (met by a concrete engine). `Spec/Lisp`: expressions with their layout. Derivations in `Yields` by mutual induction on expressions and lists; then C53. Nesting up to 500 (the stack of 1024 frames). Backwards: `Proofs/LispOnly`, derivations taken apart by induction on the length of the text, then C68: nothing else is read. |
| C67 | `Model/LispMachine`: the machine with fuel, `float64` a record of operations. `Spec/LispMachine`: arithmetic as a tree with a value, replacement of parameters as a relation, exactness of arithmetic up to a bound. Mutual induction on trees; factorials by induction on the number, generalised over the (unevaluated) argument; an invariant of all functions for aliases; a simulation for more fuel. Not returning is running out of every fuel. `C67_wrong_number`, `C67_no_arguments`: numbers of arguments; `C67_string_names`: strings as names; `C67_redefined`: aliases of a function that is defined anew. |
| C68 | `Spec/WellFormed`: which expressions can match nothing, which rules are looked up first, a rank for them (Ford's well-formed grammars, on rule texts). `Proofs/WellFormed`: what is matched gets shorter (induction on derivations); a derivation exists for each job (induction on the length of the text, then the rank, then the expression); for grammars without recursion its depth is bounded. The library by C53. `Proofs/WellFormedCheck`: a checker, used for joeson_intention.go (`C68_intention`). `Props/DeepMore`: texts nested to any depth, any tracing. |
| C69 | `Model/Color`: grammar and callbacks of the color example. `Spec/Color`: the texts with their colors, the texts that panic, as inductive predicates. `Proofs/Invert`: derivations of `Spec/Values` are deterministic, and each can be taken apart; `Proofs/Color`, `Proofs/ColorPanic`: forwards and backwards for each rule. With C68 (the grammar is well formed and flat) both directions. |
| C70 | `Spec/Report`: pieces of a text by offset and by line. From C02, C07, C08, C14 and the scan of the memo table (C36): each piece of the message for every error of a built grammar. The division is false: witness, and for every text of one line. |
| C71 | `Spec/WellFormedLeft`: as C68, but a rule may come back to itself, or its unmentioned alternatives to it. `Proofs/WellFormedLeft`: derivations of `YieldsL` are deterministic and leave a shorter text; one exists for each job (induction on the length of the text, the rank, the expression); growing ends because each round leaves less. The library by C57. `Props/DeepMore`: texts nested to any depth, any tracing. |
| C72 | `Proofs/Work`: relation between the states before and after any parser: the counter grows at most by the number of memo entries that become used, unless an entry got a wipe mask; composed through the whole engine. No mask when `Means` has an answer (field `masks` of the memo invariant of C22). With callbacks or labels inside rules: `C72_evaluations_polynomial`, by the argument of C84 (`Paid`, which bounds evaluations or calls, `tally`). `Proofs/Work2`: induction on the length of the text for `E: E '+' | 'a' E 'b' | 'a' E 'c' | 'x'`. |
| C73 | `Spec/Unmemoised`: rules without memoisation each of which begins with one of them. `Proofs/Unmemoised`: by induction on the fuel such a parse never returns, and by induction on what is left of the rule stack it overflows. C23 is the part that holds. |
| C74 | `Spec/Laws`: the laws as a relation between expressions, its closure under contexts, and lines with texts related by it. `Proofs/Laws`: one equivalence per operator, from them every law and the closure; then by induction on a derivation in the one grammar there is one in the other. Through C51 for the library. Values are not claimed: they change with the shape of a text. `Props/DeepMore`: texts nested to any depth, any tracing. |
| C75 | `Model/BuildCost`: the calls of `Walk` of the first pass of `postinit`, same recursion as `walkMono`. `Spec/BuildCost`: every expression counted `2 ^ depth` times. Equality by induction on the tree of the lines; bounds by induction on expressions; witness through C47 and C51. |
| C76 | `Spec/Indirect`: relation `YieldsI`, as `YieldsL` with helpers: rules mentioned by one text, called where the rule with that text began. `Proofs/Indirect1`, `Indirect2`: in the built grammar only the nodes of that one text refer to a helper, so a helper is private to its caller (`privacyI_ok`, the condition of C34). `Proofs/Indirect3`: induction from `YieldsI` to the relational form of `gpeg`; then C34 and C47 as in C57. `C76_minus_through_helper` by a derivation for chains of any length. `Props/Deep`: C42, C51, C53, C57 and C76 at once for texts nested to any depth, any tracing and any representation of values: a compiler of texts that gives up sometimes is compared with one that does not (`grammarFromLines_same`). |
| C77 | `Model/LispPrint`: the `String` methods of expr.go:82-98; `%f` is a parameter, of which `PrintsFixed` is assumed (digits, a point, digits). Proved: `C77_reads_back_partial`, `C77_numbers_are_not_read_back` for every expression that contains a number, `C77_number_alone` for what is answered to a number. `List.String` (list.go:16-28): `C77_list_string`, `C77_list_string_coloured`, `C77_list_string_unreadable` (two or more elements: no commas in the grammar), `C77_list_string_read`. `C77_printed_apart`: different expressions without numbers are printed differently. False as stated. |
| C78 | `Model/LispRepl`: `inputs`, what a new `bufio.Reader` in each round makes of the reads, and `session`, main.go:45-60. `Spec/LispRepl`: `Lines`, and `Says`: what should be answered, by the shape of the lines alone. Proved: `C78_typed_lines_partial`, `C78_file_first_line_only` (negation), `C78_unterminated`, `C78_session` (parser, machine and printing together, for any bytes), `C78_values`, `C78_fault_ends`, `C78_wrong_goes_on`. Prompts and the text of error messages are left out. |
| C79 | `Model/PrintRules`: the labels as lists, the rows, the whole output; who the parent of a rule is and how the grammar itself prints are parameters. `Spec/RuleTable`: `readTable` cuts the output into lines and the lines into columns at fixed places; `LabelsOf`, an inductive relation. Proved: `C79_table_read` (with `C79_row_read`), `C79_labels_decide`, `C79_prints`, `C79_same_grammar`, `C79_rule_texts_print`; witnesses `C79_wide_name`, `C79_printing_panics`. |
| C80 | `Spec/GoText`: `SameTokens` compares what the scanner found, places aside; `readTokens` cuts a text into words and runs of other characters and knows nothing of the library. Proved: `C80_layout` from C10 and C12 (layout and comments do not matter, for every grammar); `C80_tokens_readable_partial` by induction on the tokens, if no two operators are adjacent. False without that: `C80_signs_run_together`. |
| C81 | `Spec/TokenReport`: `PlaceOf`, where an offset of the joined tokens is in the text; `ShownPlace`, where the library says it is. From C09, C12, C38 and the lemmas of C70: every piece of the message of every error, `C81_parts_partial`; line and column are the true ones before the last token (`C81_place_partial`) and off by the length of the token before it in the last (`C81_last_token_place`). Witnesses `C81_char_is_not_in_the_text`, `C81_last_token_wrong`. |
| C82 | `Model/ErrorHandling`: `parseX` and the callback of `octal_byte_value` of README.md:442-493. `Spec/ErrorHandling`: `XAnswers`, what `parseX` should answer to an outcome of matching; `octalMeant`, the value of three octal digits. `C82_parseX_partial` from C76 for any grammar and callbacks; `C82_octal` gives the outcome for every text by a derivation; the README's rule text is shown not to compile, for any regexp compiler, by evaluating the grammar of rule texts. A panic of a callback is a number; which of them are `ParseError`s is a parameter. |
| C83 | `Model/Attr`: the fields of an `Attr`, nil pointers, and the methods of the native types that do nothing. `Spec/Attr`: what was set last in a history of calls. Induction over the history; the losses (rule name, attributes, native types) are proved for all arguments. That a nil `*Attr` makes the parse panic is proved for one grammar, with any callback. |
| C84 | `Model/Visits`: the same engine with a counter in the store that counts every call of `parse`; `C84_counting_changes_nothing` by the simulation of C53 (`Proofs/ValueSim`). `Spec/Visits`: size of a grammar and depth of repetitions. `Proofs/Visits` to `Visits5`: between two states of the engine, the calls are at most a local cost (induction on the expression; a repetition turns at most once per byte, as it consumes) plus M for each evaluation (`CallsSpent`), or for each memo entry that becomes used (`Paid`). As this needs the invariant of C25, the recursive calls are restricted to states that satisfy it (`parseR`). `Proofs/Visits3`: exact count for `('a'* 'b' \| 'a')*`. |
| C85 | `Spec/Renamed`: `Grammar.Within φ ρ g g'`, the rules of one grammar inside another under numbers φ and names ρ; `SameWay`, what a user can see of two parses. `Proofs/Renamed`, `Renamed2`: simulation of the whole engine function by function; the memo tables are equal along φ and empty elsewhere, wipe masks equal along φ. `Props/Renamed`: `C85_same_parse` for texts and `C85_same_parse_of_tokens` for any code stream, and adding unused rules as a corollary. `Proofs/Unused`, `Unused2`, `Unused3`, `Unused4` follow an added `I` line through `getRule`, the numbering and the passes of `postinit`; `Props/Unused`: `C85_unused_line` and `C85_unused_text`, the same on lines. |
| C86 | `Model/Objects`: parsers as objects with the fields of `rule` that `getRule` and the numbering write; `Spec/Objects`: the objects a parser is made of. `Proofs/Objects`: the numbering writes only to them, and stops at a part that has a parent. `Props/Objects`: what is not shared is not changed; a part or a Grammar used again panics; a shared parser without parts is changed (witness). |
| C87 | `Model/Lifecycle`: a Grammar object and sequences of calls. `Props/Lifecycle` by induction over the calls; the parse with an empty rank is computed for every text. |
| C88 | `Model/Regexp`: the part of Go's `regexp` that rule texts use, as a parser of the source (`rxParse`, after `regexp/syntax`) and a backtracking matcher with its order of preference; `goRx` is what `newRegexFromString` compiles. `Spec/Regexp`: the language of an expression as a relation, and how classes are written. `C88_language`: matcher = language (`Rx.run_iff`, by induction on the expression and the number of repetitions) and search = match at the cursor. `C88_class`, `C88_class_rule`, `C88_repeated_class`: reading of class texts by induction on the items. `Spec/RegexpText`: regular expressions as trees, their text and the language of a tree, apart from the parser and the matcher; `C88_written`: the text of any tree compiles, and `MatchRegexp` follows its language (`Tree.parse`, `Tree.matches`, both by induction on the tree). `C88_first_alternative`, `C88_optional`, `C88_first_part`, `C88_greedy`: which of the possible matches is taken, for any trees (the last two without `^`). `C88_regex_rule`: a grammar whose rule is `/.../` with the text of any tree, from the rule text through the modelled compiler and engine. `C88_brackets`, `C88_refused`: the brackets that `newRegexFromString` puts around a text it does not look at make `x)(y` and `?:x` acceptable; repetitions of nothing and unmatched brackets are refused. Flags such as `(?i)` and named groups are outside of the model (`goRx_no_flags`). `C88_counts`: `{n}` and `{n,m}`, refused above 1000 and if n > m. `C88_joeson`, `C88_examples`: `goRx` meets the hypotheses on `rx` of C52, C57, C59, C62, C63, C65, C66, C68, C69, C76, C82. |
| C89 | `Model/TraceLog`: `loopify` and `log` again with the lines printed; `parseT_same` (simulation) shows that nothing else differs from `Model/Engine`. `Spec/TraceLog`: a reader with a stack of open attempts, and which lines the options show. `Proofs/TraceLog`-`TraceLog6`: an engine that notes every line; the printed lines are a filter of the noted ones (simulation); the noted lines are the same with and without tracing (simulation as C39); they are read completely (invariant of the engine); leaving out rules keeps the nesting. Lines printed before a panic are not kept. |
| C90 | `Model/Overlap`: the engine again, where the value found in `TraceOptions.Stack` is any function of how often it was looked at; the flag and what calls remember of it; `Lazy.Get` by its steps. `Proofs/Overlap`: simulation with the engine without tracing as in C39, and simulation that forgets the number of looks (`C90_alone` shows that with a constant flag this is the engine of the other properties). `Proofs/Overlap2`: invariants over all orders of steps. What is missing: a call can get a panic of the tracing code (C39) from the `Debug{true}` of another, and after overlapping calls tracing may be left on (witnesses). |
| C91 | No new model. `Proofs/Shift`: a simulation of the engine by itself on the rest of the text, in which the cursor, the positions of frames, the rows of the memo table and the ends kept in frames are `n` less, and every address in the table, on the stack and in a stash is one that was allocated. `Proofs/Shift2`: matching in the rest of a text, and the rows scanned for an error. Not traced (the trace is C89's), and lines are left out (those of tokens are lines of the original text, C10). |
| C92 | `Model/Slices`: memory as blocks of cells, slices as windows with a capacity, Go's `append` with a capacity given by the environment, and the statements a user may write with arrays and slices. `Spec/Slices`: the same statements on lists, for programs that append only to what they own. Refinement by an invariant: no two variables that may be appended to share a block, and no other window on the block of such a variable goes beyond its end. For programs that are not careful: what happens, for all states. |
| C93 | `Model/SharedMaps`: Go maps as variables of their own, `NativeMap`s as the number of a Go map and a list of keys, statements of the user and `Set`. `Spec/SharedMaps`: every `NativeMap` with its own content, for programs that do not use a Go map once it was given away. Refinement by an invariant: no two objects have the same Go map, none has one that may still be used, and keys and values agree. For programs that do use it: what happens, for all states. |
| C94 | `Model/LineText`: `stringIndent` of the five types of line and the message of parser_rank.go:41; the regular expression `^ *o *` as a function. `Spec/LineText`: arrays as they are written with `O`, `I` and `Named`, and the rows that should show them. By induction on the nesting: the message without colours is these rows; the rows can be read back, so that different arrays have different messages. What happens to texts that begin with `o`, for all such texts. Not modelled: `summarizeRule` (line.go:76-104), after which the program exits. |
| C95 | `Spec/NativeText`: how values are printed, as a relation with `List.intercalate`, and the values for which this can be undone. Refinement of `Ast.string` (`Model/Native`), and injectivity by induction on the value, reading up to the first sign. Witnesses for the values left out, for all texts and integers. |
| C96 | `Model/StreamText`: `Print`, `PrintDebug` and `PrintWorkText` with their colours. `Spec/StreamText`: a place shown in a text, lines in which blanks can be seen. The text without colours is that of the specification; for tokens by the place their position stands for (`ShownPlace`, C09). What `PrintDebug` of a token stream shows instead, for all streams. |
| C97 | `Model/Conversions`: `SortIntKeys` on the entries in the order in which `range` comes across them (with an insertion sort for `sort.Ints`), `NewNativeIntFromBool`, `Bool`, `Origin.String`, `Copy` of trace options, `String` of the color example. By induction on the list: sorted, same members, so unique. Texts are split at the commas, which no number contains; numbers are read back by `atoi`. |

Findings (behaviour that contradicts documentation or the natural reading) are
proved as negations with concrete witnesses and listed at the end of this file
as they are established.

## Simplifications of the model

* Parsing (`Model/Engine`): the messages written by tracing are left out here (`Model/TraceLog` has them, C89), but the computations that produce them and can
  panic are modelled (`Stream.render`, line filters, the nil frame under SkipCache). `String()` of user values in messages
  is assumed not to panic. Callbacks see the value, the position and the store, and return a value, nil or a panic.
* Values (`Model/Values`, `Model/Heap`): origins are passed to `setOrigin` of the value operations. The tree values keep
  them, the heap values do not. The `Set` of a user type other than NativeMap is not modelled.
* Building (`Model/Build`): a parser given to `O`, `I` or `Named` is not shared with another line or grammar. The type of a
  sequence is computed when the grammar is built instead of at the first parse; where that could differ the model panics
  with `notModelled`. A rule made of a parser given to `Named` is not memoised by the code; the model replaces references
  to it by a choice with one alternative. Rule texts are compiled by a parameter `compile`.
* Rule texts (`Model/Joeson`): the parsers made by callbacks are immutable values (labels and captures set later give a new
  value); the text of a regular expression, origins and the parameter of a reference are left out; regular expressions of rule
  texts are compiled by a parameter. The syntax (`Spec/RuleText`) has no code after a group. Items of a sequence may
  be written without blanks except where they would run together (`Deco.before`).
* Token streams: the scanner is a parameter.
* Parsers as objects (`Model/Objects`): the lines are `O` lines with a Parser; the pass that removes choices with one alternative and `prepare` are left out.

## Findings

Behaviour that contradicts the documentation or the natural reading. Those with a theorem name are proved.

1. A repetition with a maximum of 0 or 1 can match twice (`C31_max_one_matches_two`).
2. A repetition of something that can match nothing never ends (`C25_nullable_repetition_diverges`).
3. A failing parse of an empty text returns nil instead of a ParseError (`C35_empty_input_nil`).
4. The position of the last token of a token stream is too large by the length of the token before
   (`C09_last_token`), possibly outside the text (`C09_last_token_outside_text`). Tokens with an inserted space are off
   by one (`C09_inserted_space`).
5. `ParseTokens` does not rewind the stream: a second parse starts at the end (`C38_second_parse_starts_at_end`).
6. Scanner errors after the first character are dropped, and the package variable `scanErrors` makes a later call panic
   (`C11_scan_errors_ignored`, `C11_later_call_panics`, `C11_history_dependent`).
7. With `Debug{true}`, a panicking callback leaves the trace option set for later parses (`C37_trace_not_restored`).
8. `NativeMap.IsEmpty` is inverted (`C19_isEmpty_inverted`).
9. `TraceOptionsFromEnvironmentOrUse` ignores its argument (`C46_default_ignored`).
10. `RuneStream.PeekLines()` without arguments gives "" (`C08_peekLines_no_argument`); outside the text it panics or
    returns a wrong piece (`C08_peekLines_outside_panics`, `C08_peekLines_before_first_is_wrong`).
11. `GetUntil` moves although the text is not found (`C06_getUntil_absent_moves`).
12. `helpers.LastNRunes` panics on malformed text and on U+FFFD (`C16_lastNRunes_malformed_panics`), and with it
    `PeekRunes` backwards (`C07_peek_backward_replacement_char_panics`) and tracing (`C39_malformed_text_panics`).
13. Sequences with a leading label `@`, or with `&`, merge into a map that may be in the memo table, so that a cached result changes
    (`C42_cached_value_changes`).
14. Nesting of 1024 rules panics (`C40_deep_nesting_panics`).
15. Entries of the memo table survive the growing of a left recursive rule when the recursion goes through other rules: a
    parse is missed or a spurious one returned (`C48_stale_entry`, `C48_leftover_entry`).
16. A lookahead returns its operand's result, where the README says NativeUndefined (`C28_lookahead`).
17. A failing sequence leaves the position where it failed; choices and repetitions move back (`C27_every_call_balanced`
    states what holds).
18. `Lazy.Get` after `Clear` dereferences nil (`C17_get_after_clear_panics`).
19. `SkipCache` given to `ParseString` has no effect (`C50_skipCache_ignored`); for a rule, tracing with `TRACE=stack` panics
    (`C39_skipCache_panics`). TRACE=loop with a line filter panics (`C39_loop_filter_panics`).
20. A ParseError returned by a callback is an ordinary value (`C41_just_a_value`, `C41_error_dropped`,
    `C41_error_inside`), although the comment in parseerror.go says parsing fails immediately.
21. `NativeArray.Concat` of an array that contains a map writes `NativeMap{...}` (`C20_map_in_array`).
22. A rank that includes a name twice visits the second rule twice: numbers are wasted (`C43_duplicate_name`), or the
    grammar cannot be built (`C43_duplicate_name_panics`).
23. A rank named "" takes the name of the first rule it includes (rule.go:62-64), so that its alternatives are named after
    that rule (example beside `C44_anonymous_different`).

24. In a rule text, code after a group (`(a)->{b}`) passes the grammar and then panics with a failed type assertion
    (`C47_code_panics`): the callback of `CODE` is given the value of the code instead of the map of the group. The empty rule
    text panics with a type assertion too (`C47_empty_panics`).
25. Rule texts nested more than 72 deep exhaust the rule stack (`C47_or_stack_overflow`; by evaluation, 73 parentheses do).

26. Groups in a sequence (C54): the label of a parenthesised sequence is lost, `x:(A B) C` gives an array
    (`C54_group_label_is_lost`); `C ('a' 'b')` gives undefined instead of the value of `C`
    (`C54_group_of_strings_is_captured`); `'c' (A B)` gives `[[a,b]]` (`C54_single_group_is_wrapped`); `(x:A y:B)?` gives a map
    with the key `@` (`C54_optional_group_is_wrapped`); `A ('b' | C)` drops the value of `C`
    (`C54_choice_with_string_not_captured`).

27. `StripAnsi` removes everything between a colour sequence and a BEL (`C55_stripAnsi_bell`), and text after an escape
    character (`C55_stripAnsi_escape`).
28. Printed parsers are not rule texts in these cases (C56): regular expressions are printed with a `g` behind (`C56_regex`),
    quotes in strings are not escaped (`C56_quote`), escapes like `\n` are printed but not read (`C56_newline`), parentheses
    around labelled or decorated operands are not printed (`C56_label`, `C56_operators`), so that `(!a)?` and `!(a?)` are
    printed in the same way (`C56_ambiguous`).
29. Example 1 of the README labels only the first digit of a number: `12` gives the game with number 1
    (`C63_first_digit`, `C63_readme_differs`). The README turns it into ranks that give the game with number 12.
30. The README is wrong about repetitions with separators: `'a'*'b'` does not match `aaa` or `aabababa`, `'a'+'b'` not
    `abaaaba`, `'a'*'b'{1,2}` neither `aaaa` nor `aaabaaa` (`C64_readme_wrong`). `'a'{,1}` matches `aa` (`C64_max_one`).
31. The two grammars of examples/precedence with parentheses and blanks panic if an operation is in parentheses, as in
    `(a+b)*c`, or a unary operation, as in `(-a)`: `growMoss` is the callback of `Factor` too and gets neither a string nor an
    array of the form it expects (`C65_parentheses_panic`, `C65_unary`).
32. Lists of the Lisp example must have blanks between elements even where parentheses separate them: `((a)(b))` is an error
    (`C66_unseparated`). Integers outside the range of `int64` panic instead of being an error (`C66_reads`).
33. The machine of the Lisp example: `not` does not negate (`C67_not`); `(list? (+ 1 2 3))` is true, the comment says false
    (`C67_list`); `(and ())` and `(or ())` never return, the comments say true and false, nor does any other function of
    numbers with a list that is not a call (`C67_never_returns`); `(car ())` and `(cdr ())` index out of range before their
    own checks for empty lists (`C67_empty`); aliases like `+` cannot be aliased (`C67_alias`).
34. The color example: `Integer` is `[1-9][0-9]*`, so no component of `rgb(...)` or `hsl(...)` can be 0; `rgb(0, 0, 0)` is a
    parse error and no text is black (`C69_no_zero`, `C69_no_black`). Components are not limited to 255 (`C69_any_numbers`).
35. Parse errors: OK and Unknown show the whole line of the cursor and of the furthest attempt, so text is shown twice; for a text
    of one line both are the whole text (`C70_single_line`). Parsing and Suspect pass byte counts to `PeekRunes`, which counts
    code points, so they show too much if the text is not ASCII (`C70_non_ascii_shows_too_much`).
36. That a left recursive rule failed is not remembered (packrat.go:138-146, `cacheSet(frame, nil)` is commented out as unneeded, but the
    entry keeps endpos -1): the rule is evaluated again at each attempt. `C72_left_recursion_exponential`: 2^(n+1)-1 evaluations of
    one rule on a text of length n that does not match.
37. Left recursion needs the memo entry: with `SkipCache` for a rule that begins with itself, every text exhausts the rule stack
    (`C73_every_text_panics`, `C73_witness`).
38. Options of a rule other than the callback are dropped if the rule is made of lines or of a parser
    (`C58_options_of_ranks_dropped`); the options of a line inside another line are dropped (`C58_inner_options_lost`).
39. Building a grammar takes time exponential in the depth of its rule texts and ranks: the first pass of `postinit` visits a
    parser at depth k 2^k times (`C75_visits_exact`, `C75_exponential`).
40. The Lisp example prints numbers with `%f`, which its own grammar cannot read: `(+ 1 2)` answers `3.000000`, and no expression with a number
    that it prints can be entered again (`C77_numbers_are_not_read_back`). `List.String` puts commas between elements, which cannot be read either
    (`C77_list_string_unreadable`).
41. The Lisp example makes a new `bufio.Reader` for each line (main.go:34), which discards what the last one had read beyond the newline: with
    input from a pipe or file only one line per read is answered (`C78_file_first_line_only`). A last line without newline is ignored
    (`C78_unterminated`). Any fault of the machine, an undefined function for example, ends the program (`C78_fault_ends`).
42. An undefined reference `@:name` inside an optional makes building the grammar panic, whether a parse would reach it or not
    (`C45_spliced_in_optional_panics`, `C45_unreached_panics`): optionals ask for the labels when they are prepared.
43. With TRACE=grammar, building panics on a rule `@:name` with an undefined name, even if no parse reaches it; without it the grammar is
    built (`C79_printing_panics`). A name of more than 14 letters shifts the other columns of its row (`C79_wide_name`).
44. The Go code a grammar sees has no blank between operators: `x < -y` and `x <- y` give the same text, and so do `a - -b` and `a--b`
    (`C80_signs_run_together`). A grammar cannot tell them apart, though the Go scanner did.
45. An error in tokenised code says `char:` and the offset in the joined tokens, next to line and column in the original text; Parsing and
    Suspect show joined tokens, OK and Unknown original lines (`C81_char_is_not_in_the_text`). In the last token line and column are
    wrong (`C81_last_token_wrong`).
46. The rule of octal numbers of README.md:448 does not compile: in `'\'` the backslash escapes the quote (`C82_readme_rule_text`). With
    `'\\'` its callback reads the octal digits as decimal ones: `\142` is 142, `\377` is refused (`C82_octal_is_read_as_decimal`,
    `C82_byte_refused`, `C82_readme_example`). Too few digits are reported as "too many" (`C82_octal_errors`).
47. `GetOrigin` never has the name of the rule that `prepareResult` sets, `SetLine` sets start and end to 0, strings, numbers and arrays
    forget everything, `SetAttribute` always panics (`C83_rule_name_lost`, `C83_natives_forget`, `C83_no_attributes`). A callback that
    returns a node that embeds `*Attr`, as README.md:434-438 asks, without making it with `NewAttr` makes the parse panic (`C83_nil_attr`).
48. Only rules are memoised, their parts are not (packrat.go:292-309): `S: ('a'* 'b' | 'a')*` is evaluated once on `n` times `a` and calls
    `parse` (n² + 13 n + 16) / 2 times (`C84_quadratic`), so a parse without left recursion need not take linear time.
49. A Grammar is a Parser, but using one in the lines of another panics with "Grammar tree should be a DAG" (`C86_grammar_as_parser_panics`). A Parser
    without parts can be given to two grammars; the second then silently takes over its name, callback and number, so that the first indexes
    its memo table with a number of the second (`C86_shared_rule_changed`).
50. With `FilterLine` the opening line of an attempt may be printed without its closing line and the other way round, because each is
    compared with the line of the cursor (`C89_filterLine_cuts`). For tokens that is the line at which the cursor is shown, so the last token is
    looked for on the line of a place after it (`C89_tokens`, finding on `C09_last_token`).
51. `Debug{true}` is written to the options of the grammar (grammar.go:109-120), which all calls share. A call that overlaps with another may leave
    tracing on for all calls that follow (`C90_left_on`), take away the tracing another asked for (`C90_debug_lost`), or make another panic that
    would succeed (`C90_panics_from_other`). Values are not affected (`C90_same`), nor are calls made from callbacks (`C90_nested`). The function of a `Lazy` may be
    evaluated by several calls (`C90_lazy_twice`).

Seen while reading, not stated as theorems:

* Rules given to `Named` as a Parser are wrapped twice and are not memoised (line.go:113, packrat.go:297).
* A reference labelled `@` to a rule reached again from itself makes the computation of labels recurse without end.
* NewNativeMap keeps the caller's map.
* The rule `.` of the Lisp example is `'\s' | '\S'`: strings, not classes, so it matches letters; it is used by no other rule that is reached.
