# Formal model of forsyth/jsonpath in Lean 4

The repository is a JSONPath library for Go: a lexer and two parsers (`paths/`), a compiler to a
small stack machine and that machine (`mach/`), the public API (`jsonpath.go`) and a command
(`cmd/jpath`). This project models all of these as executable Lean functions and proves the
properties listed in `properties.jsonl` about the model.

## Layout

| directory | content |
|---|---|
| `lean/Verif/Model/` | the model, function by function, each definition citing file and lines |
| `lean/Verif/Spec/` | independent, small specifications used in property statements |
| `lean/Verif/Proof/` | helper lemmas |
| `lean/Verif/Props/` | the property theorems, and an `example` beside each one |
| `lean/Verif/Tests/` | tests (labelled as such): the repository's own test data run through the model |
| `seeded/LOG.jsonl` | record of wrong programs tried against the theorems |

## Trusted base

* Lean 4.33.0's kernel. No axioms are added; theorems use at most `propext`, `Classical.choice` and
  `Quot.sound`. No `sorry`, `native_decide`, `bv_decide`, `implemented_by` or `unsafe`.
* The reading of the Go text: the code is not run here. The tests in `Verif/Tests` run the
  repository's test data through the model.
* Go semantics as modelled: `int`/`int64` as 64-bit two's complement (`Int64`), strings as byte lists,
  slices as lists (nil distinguished where it matters), maps as lists of members with distinct keys
  and an arbitrary iteration order per iteration, dynamic types of `interface{}` as constructors of
  one inductive type `V`.

* Mathlib (one module at a time) for rational numbers and order lemmas in the statements and proofs about
  floating point. The model itself does not use it.
* What the documentation and source of the Go standard library say about `strconv`, `fmt`, `strings`, `unicode/utf8`,
  `math` and `sort` functions that the code calls: the model contains definitions for them.

### Modelled exactly

`paths/{rd,tokens,lex,lexexpr,lexpath,parser,parsepath,parseexpr,ops,expr,val,path}.go`,
`mach/{program,coder,run,json,fns}.go`, `jsonpath.go`, the processing loops of `cmd/jpath/jpath.go`,
IEEE-754 binary64 arithmetic (exact rational result, rounded to nearest even: `Model/F64`; proved against a
specification over ℚ in `Props/Float`), `strconv.ParseInt`, and `strconv.ParseFloat` for decimal texts
(`Model/Number`, including that exponents are not read beyond five digits; proved in `Props/Real`), and the
text that `fmt.Sprint` gives a float (`Model/Format`: the shortest decimal that reads back, with an exponent if
that is less than -4 or greater than 5; proved against `Spec/Shortest` and read back in `Proof/Format`).
`Model/Text` has `strconv.Quote` and `CanBackquote`, the messages of `Compile`'s errors and `mach/text.go`;
`Model/Sprint` has `fmt.Sprint` of every value that can occur as a key, and `Model/RunText` the messages of the errors
of `Eval` with the verbs `%s` and `%#v`.

`Model/Conc` models memory, goroutines and channels: a heap of arrays and map objects, slices with length and
capacity, `append` with an arbitrary growth policy, unbuffered channels, and every interleaving of any number of
evaluations and their producers.

### Parameters (the theorems hold for all of them, `Env`)

`strconv.ParseFloat` for texts that are not decimal numbers (hexadecimal, underscores, `inf`, `nan`), the regular expression engine (`Compile` succeeds, `MatchString`, `Split`), the result of `int64(f)`
for `f` out of range, which characters beyond ASCII are printable (`strconv.IsPrint`), the messages of the errors of
`regexp.Compile` and `strconv.ParseFloat`, and what `%#v` writes for an empty slice or map (it may be nil) or an address. Where a theorem needs a fact about one of them, that is
a hypothesis of the theorem. In `Model/Conc` also the growth of slices.

### Not modelled

* tracing output;
* memory limits: a Go slice cannot have 2^63 or more elements, and this is a hypothesis
  (`V.WF`) on documents;
* the limit on the stack of a goroutine, except in C100, C101 and C103, which count nested calls in parsing, compiling and evaluating;
* encoding/json, the flag package and file operations in `cmd/jpath` (parameters of that model);
* the scheduler's fairness, the memory allocator, the garbage collector.

### Simplifications in the concurrent model

* Memory is sequentially consistent. Go promises that for programs without data races, and C18 proves that there
  are none (in this same model, where a race is two enabled actions of different goroutines on one location, one
  of them a write).
* Reading a whole value out of an interface is one action.
* The machine's value stack `m.values` is a list private to the evaluation: it is never shared.
* The caller does not modify documents while they are evaluated. (Evaluations could, in the model; C37 proves
  that they do not.)
* The compiled regular expressions are safe for concurrent use, as the documentation of `regexp` says.

## Main modelling decisions

* **Outcomes.** A Go call returns a value, returns an error, or panics: `Res.ok`, `Res.err`,
  `Res.panic`. `Res.stuck` marks exhausted fuel of a model function; it is proved unreachable.
* **Machine.** `step` executes one order; `run` is its iteration as a least fixed point in `Option`
  (`none` = does not terminate), so termination is a theorem and not built in.
* **Goroutines.** In `Model/Machine` a producer is the list of values it will still send. `Model/Conc`
  is the real thing: producers as processes over unbuffered channels, with every interleaving; the
  theorem for C17 says that every schedule gives the result of the sequential machine.
* **Map order.** An `Oracle` gives, for every map iteration of an evaluation, an arbitrary
  permutation. Properties quantify over all valid oracles.
* **Reference semantics.** `Spec/Eval` evaluates path trees directly, without programs, stacks,
  program counters or channels. C04 relates the machine to it; later properties are then proved about
  the reference semantics and transported.
* **Parser.** Fuel-structural recursion; sufficiency of the fuel is a theorem (part of C01).

## Plan per property

| id | what is modelled and how it is proved |
|---|---|
| C01 | lexer + parser + coder; fuel sufficiency by a measure on the remaining text; no panic constructor reachable |
| C02 | machine; compile-correctness gives a terminating run for every program of a path |
| C03 | false as stated (slice stride overflow; programs of 2^22 or more orders): negation with witness; `_partial` under a bound on program size and strides |
| C04 | simulation of the compiled code against `Spec/Eval`, by induction on paths and expressions |
| C05 | bit arithmetic on `UInt32`/`Int64` |
| C06 | from the shape of `Run`'s return |
| C07 | false (filter over no children yields `null`): negation; partial for the other cases |
| C08-C14 | reference semantics of single steps against list-level specifications; slice against an arithmetic-progression specification; C12, C14 are partly false |
| C15 | composition is proved; independence of the values of the result set is false for slices on non-arrays and for filters that select null; proved for all other steps and for paths of them |
| C16 | reference semantics under two oracles gives permuted results; false for slices over objects, partial otherwise |
| C17 | small-step concurrent semantics, invariant relating it to the sequential machine, progress |
| C18 | product of several evaluations under arbitrary interleaving |
| C19 | false when Eval returns an error inside a loop: witness; partial for successful evaluations |
| C20-C28, C44 | value-level functions against specifications; floating point against correct rounding over ℚ |
| C29 | which operations can return which error, over the reference semantics |
| C30 | printer and parser: parse (print t) = t; the trees that have a text, characterised exactly |
| C31, C32, C35, C46 | the parser is sound and complete for a grammar over tokens (`Spec/Grammar`), the lexer for spellings of tokens (`Spec/Lexical`); both are inductive relations. The documented grammar (`Spec/Documented`) is compared with it |
| C33, C34, C36, C49 | from the same lexer theorems; real literals against ℚ |
| C37 | heap model of slices: the machine's writes stay outside the document |
| C38 | Eval is a function of program and document; histories |
| C39, C40, C43 | false of the code: negation with witness; what does hold as `_partial` |
| C41 | command loop |
| C42 | API |
| C45 | offsets in parser errors bounded by text length |
| C47 | coder's constant table |
| C48 | machine on the empty program |
| C54 | texts of numbers: the shortest decimal is unique (`Proof/JsText`), JavaScript's text is a relation on it |
| C55 | Go's string literals as a relation (`Spec/GoLiteral`) in which no literal is a prefix of another |
| C56 | the pieces of a program's text are words or literals, so the text is read in one way; every constant is referred to by an order of its kind |
| C57 | ToNumber is a relation on decimal texts, which denote one number each; JavaScript's text of a float denotes that float |
| C58, C59 | places in a document as a relation (`Spec/Locate`); each step takes different places to different places (`Proof/Locate`) |
| C60, C61 | equivalence of notations as an inductive relation (`Spec/Notation`); equal steps give equal results from any state (`Proof/Notation`). The filters of C61 have the same candidates, and the truth of `&&`, `||` and `!` is that of the operands |
| C62 | the printed leaves are characterised in `Spec/Leaves`; each printed string is shown to denote (`Denotes`, `Spec/Literals`) the string it was printed from, and printed numbers are tokens whose value is known from C54 |
| C63 | JavaScript's texts are those of `Spec/JsText` (C54), Go's are given by the relation `GoText` (`Spec/Keys`), with the members of an object in any order that is sorted by name; which values agree is stated without either |
| C64 | the words of each message are in `Rejects`, operators as written in `WrittenAs`, the texts of operands are those of `GoText` (C63); the marked ones are those with `HasNumber` (`Spec/RunText`) |
| C65 | the elements of a slice one by one, from the rule of C10 (`Proof/SliceLaws`); the laws follow by comparing them |
| C66 | messages and status in `Model/CmdText`; that encoding cannot fail follows from C07, given that encoding/json encodes what it decodes (`FromJson`, `Spec/CmdText`) |
| C67 | from the exact grammars of paths and expressions: a text that ends with given tokens is split before them (`Proof/Script`) |
| C68 | the number of ways by the level of a place, as a convolution (`Spec/Ways`); each step is bounded by its own (`Proof/Ways`), and `*` attains it |
| C69 | two runs of the parser on texts with a common beginning do the same until the first has read past it (`Proof/Local` for the lexers, `Proof/LocalParse`) |
| C70 | the simulation of compiled code (`Proof/SimPath`) is for any way to run programs that counts orders (`Runs` in `Proof/Sim`), of which `run` and `runFuel` are two; `Proof/Work` bounds the count by means of C68 |
| C71 | false as stated (`abs` of the least integer): negation with witness; `_partial` otherwise. `Proof/Numbers` shows that every function of the evaluator commutes with a replacement of some `int`s by `int64`s |
| C72 | false as stated for `Kid` of negative numbers and for texts of steps with expressions: negations; `_partial` otherwise. The trees are those of C30; the text of a step determines it up to the notations of C60 (`Proof/Tree`) |
| C73 | false as stated (`$[(@.length-1)]`): negation, and that `@` is then the same as `null`; `_partial` for expressions without `@`; full after `..` |
| C74 | false as stated for filters and slices: negations; `_partial` for the other steps, from C08-C13 and the multiset of arrays and objects below a value (`Proof/Descent`) |
| C75 | false as stated (`==` and `<=` beyond 2^53): negations; `_partial` for integers up to 2^53; `<` in full. `Proof/Total`: rounding integers to floats is monotonic, and exact up to 2^53 |
| C76 | false as stated for floats: negations; `_partial` on integers and booleans, from C24 and C52 and the ring of 64-bit integers |
| C77 | a relation between the scalars of two documents carries over to the results, by a relational reading of the evaluator (`Proof/Shape`) |
| C78 | false as stated for negative integers and slices: negations; what the other steps select together is computed as a multiset (`pathOf`), which is monotone in the document (`Proof/Grow`) |
| C79 | false as stated for null, for a string with a number, and for some strings: negations; `_partial` for the rest from C25, since UTF-8 keeps the order of characters (`Proof/JsOrder`) |
| C80 | false as stated for strings, null, quotients, zero divisors and large integers: negations; `_partial` from C24 and the exactness of floats up to 53 bits |
| C81 | false as stated for unions, negative strides and descent: negations; `_partial` for all other paths by induction on the steps, with document order defined level by level (`Spec/DocOrder`) |
| C82 | replacement as a relation between trees (`Spec/Swap`); induction on it, with C04 |
| C83 | steps apart from their notation (`Spec/Apart`); for two different lists of them a document is constructed (`Proof/Apart`), and C78 gives the results |
| C84 | from the lexer and grammar theorems (C32, C46) joined texts have the joined tokens (`Proof/JoinPath`); results by C15 and C59 |
| C85 | two runs with different orders, step by step: the orders are never used, or only for lists of at most one member (`Proof/Slim`) |
| C86 | two evaluations side by side, the second with renamed members and selectors (`Proof/Rename`) |
| C87 | false as stated beyond 3 MB: negation; `_partial` for all other texts. Sizes are counted along the grammar of C46, where each token has a least length; the shape along the coder (`Proof/Program`) |
| C88 | the evaluator is followed on two related documents at once; expressions by induction on what a test for presence is (`Proof/Presence`) |
| C89 | false as stated: negation; `_partial` for tests for presence, from C88 and the rounding of decimal texts (C24); what operators do instead, one by one |
| C90 | false as stated: negation; equality of the same JSON value for all documents, the converse `_partial`; by recursion on the size of values (`Proof/JsonEq`) |
| C91 | false as stated for characters: negation, `_partial`; every other kind of message for all texts, by partial correctness of the parsers (`Proof/Blame*`) |
| C92 | false as stated beyond 3 MB: negation; `_partial` for all other texts, by an invariant of the machine: heights along the coder, jumps between points of equal height (`Proof/Stack`) |
| C93 | tokens written one after the other may be cut anywhere: what a token asks of the text after it, it asks only of its first character (`Proof/Cut`); the other direction is C84, results by C15 |
| C94 | the invariant of the system (`Proof/Conc/System`) counts the producers started and the channels held; compiled loops are not nested and are begun at most once (`Proof/Goroutines`) |
| C95 | a relation of documents as for C88 (`Proof/Presence`), that comparisons keep: an integer of 53 bits and any other compare as their floats do (`Proof/IntFloat`) |
| C96 | the pseudo-code and orders of the RFC as inductive relations (`Spec/Rfc`); the rules of C08-C13 and C44 meet them selector by selector (`Proof/Rfc`), texts by C30, segments by C15 (`Proof/RfcSteps`); nodelists are unique up to order (`Proof/RfcUnique`) |
| C97 | `Spec/RfcFilter` states filters after the RFC; expressions are written and read back by C30 (`Proof/RfcFilterText`), evaluated by C22, C25, C50, C51, C75 and C90, and filters by C14's rule for visits (`Proof/RfcFilter`) |
| C98 | `Spec/RfcText` is the grammar of the RFC; its literals are C33's, its words C31's, and texts are joined by white space and punctuation (`Proof/RfcText`); queries are cut into segments by C93 and evaluated as in C96; Normalized Paths by C59 |
| C99 | `Spec/Shuffle` relates documents; nodelists of related documents are related (`Proof/Shuffle`), and evaluations give nodelists by C98 |
| C100 | `Model/ParseDepth` is the parser with a count of frames; from every state both do the same when there are enough frames for the openers left, with a level of precedence a frame (`Proof/ParseDepth`) |
| C101 | `Model/CodeDepth` is the coder with a count of frames, compared with the coder by induction on trees (`Proof/CodeDepth`); the length of the text bounds the height by C87 |
| C102 | `Model/ParseTime` is the parser with a count of steps; every function takes at most 20 steps for each unit of `mu`, the measure of what is left to parse (`Proof/ParseTime`); `Model/CodeTime` is the coder with a count, at most 8 steps for each order (`Proof/CodeTime`), and C87 bounds the orders |
| C103 | `Model/RunDepth` is the machine with a count of the frames of `walkdown` and `eqVal`; `Proof/RunHeight` bounds the height of all values that an evaluation holds, by an invariant of its states and the stack discipline of C92; `Proof/RunExact` finds the frames that comparing a value with itself takes, `Proof/WalkExact` those of a descent |
| C104 | `Model/EqTime` is `eqVal` with a count of calls; the bound by the right side rests on the distinct names of the left: members that are missing on the right are made up for by those that are missing on the left (`found_le`) |
| C50-C53 | operators on values, against the selection rules of the steps |

`Verif/Proof/KRfl` is a small tactic that leaves a computation to the kernel; it adds nothing to the trusted base.

## Disagreements found between the code and the properties

Nearly all are proved as theorems (negations with concrete witnesses).
1. `$[1:3:9223372036854775807]` panics on a 3-element array (index overflow in the slice loop). C03, C10
2. A slice applied to a non-array drops everything selected so far by the step. C12, C15, C16
3. A filter or `..` loop over no values runs its body once with `@` = null: `$[?(true)]` of `[]` is `[null]`. C07, C14
4. `max` of strings is the minimum. C26
5. `(1.5)` as index is not converted, so it does not index arrays. C40
6. Expressions as slice bounds are treated as 0. C39
7. `&&` and `||` do not short-circuit errors. C43
8. Object equality is not symmetric when a member is null. C20
9. An error inside a loop leaves the producer goroutine blocked for ever. C19
10. `-9223372036854775807` in a path is rejected. C34
11. Paths whose program has 2^22 or more orders are miscompiled; the shortest have 3 MB and a byte. C03, C04, C87
12. ParseScriptExpression accepts the unterminated literal `'\'`, which is rejected in a path. C33, C67
13. `.length` hides a member called length; indexing an array by a string that is
    no integer selects element 0. C50, C51
14. `OpSlice` and the `slicing` code in the machine are dead: no program of a path contains that order. C87
15. A regular expression that ends with a backslash cannot be written in a path, though it may be valid. C30
16. Bare names in subscripts (`$[a]`) are accepted but not documented; so are exponents with `E`. C46
17. With 2^23 or more steps before a filter, evaluation does not terminate; with 2^22 it panics; with other
    numbers it gives the result of another path (jump offsets wrap). C02, C03, C04
18. A lone surrogate escape before a surrogate pair makes the pair unreadable (`\ud800\ud83d\ude00`). C33
19. The command stops reading at a line of 64 KB or more without an error message naming the line. C41
20. `abs` of the least Go `int` is negative, and that of the least `int64` fails. C44, C71
21. A text with 9677 digits (and none with 9676 or fewer) before an exponent of six digits can denote another number (a limit of
    `strconv`, which the lexer passes on). C49
22. Unary minus of null, an array, an object or a string that is no integer is 0, not a failure. C52
23. An array of several elements never equals a string; `[null]` equals `"null"`; an inner array counts as
    `[object Object]`; and a float from a million up to 10^21 has an exponent in its text, which it has not in
    JavaScript: `[1000000.0] == "1000000"` is false. C54
24. A `?` not followed by `(` is reported as an unexpected character after `(`, though there is none, and at the
    end of the text the unexpected character is U+FFFD: `$[?`. (example in Props/Messages)
25. The text of a program does not show the operands of an expression used as a bound, nor that it is one: `$[1:]`
    and `$[(1):]` print alike. C56
26. A single element of an array is converted without regard to its text: `[true] == 1`, `[[1]] == 0`, `[{}] == 0` and
    `[0.5] == false` are true, `[null] == 0.0` is false. An object never equals `"[object Object]"`. C57
27. `String` of expressions gives texts that are not read back: `1.0` is printed `1`, `/x/` is printed `Regexp("x")`, a
    string with the character 7 is printed with `\a`, and an expression with operands is printed as the name of its
    operator. A slice with expressions is printed without the parentheses these need. C62
28. The name computed from a value is not the text JavaScript would use, except for strings, booleans and integers: null
    names `<nil>`, `1.5` names `1`, `["a"]` names `[a]` and an object names `map[...]`. C63
29. The messages of `Eval` show operands with the verb `%s`: `1 in 2` gives `in requires array right operand, not
    %!s(int64=2)`; and `=~` is shown as `~`, with an array or object on its right in Go syntax. C64
30. A minus sign at the end of a path is reported at the offset before it (`$[-` at the bracket): the reader steps back
    over a byte that it did not read last. C69
31. `Inner.Kid` panics for a negative number; it is documented to return nil and false if there is no such child. C72
32. `Step.String` shows an expression only by the name of its operator: the steps of `$[(0)]` and `$[(1)]` have the same
    text. C72
33. In a computed key `@` is null, except after `..`: `$[(@.length-1)]`, which the tests of the lexer and of the compiler
    use, selects nothing from any document, but `$..[(@.length-1)]` does select last elements. C73
34. `==` and `<=` are not transitive: an integer beyond 2^53 is rounded when it is compared with a float, so that
    `9007199254740993 == 9007199254740992.0` and `9007199254740992.0 == 9007199254740992`. C75
35. `<`, `<=`, `>` and `>=` are false whenever one side is null, or one side is a string and the other is not:
    `null < 1` and `1 < "2"` hold in JavaScript. Strings are ordered by characters, not by units of UTF-16, so that a
    character from U+E000 to U+FFFF is before one beyond U+FFFF, the opposite of JavaScript's answer. C79
36. Integers are divided without a fraction, `7/2` is 3, a zero divisor is a failure, and `+` does not join strings,
    unlike in JavaScript. C80
37. A negative number after a dot is a name: `$.-1` selects the member `-1` of an object, and nothing of an array, whereas
    `$[-1]` selects the last element. C83
38. Numbers decoded as `json.Number` (with `UseNumber`) are accepted, but only their truth, their text and, as indices, integers are
    as for other numbers: they equal nothing, not even themselves, are never less or greater, give nothing in arithmetic, and
    `abs`, `sum` and so on fail on them; `-` gives 0 for those with a fraction. C89
39. After a minus sign the character called unexpected is not the one at the offset: in `$[-x]` it is `x`, at the offset of the
    minus sign, and a negative number that is too large is reported as an unexpected minus sign at its last digit. C91
40. A union of 2^23 elements has its count packed as 0: it selects nothing, and its elements stay on the stack. With 2^22 elements
    it panics. C92
41. Whether an integer of the document is an `int64` or a `float64` can be seen: `0 == '0.5'`, `0 == [null]` and `3/2 == 1` are true for
    integers and false for the same numbers as floats; 2^53 equals the literal 2^53+1 as a float only. C95
42. Against RFC 9535, `*` is not accepted beside other selectors (`$[*,0]`), and an index selects a member of an object whose name is its
    digits (`$[0]` of `{"0": true}`). C96
43. Against RFC 9535, filters differ in what exists (null, false, 0 and "" do not), in `==` with what is missing and null (equal), between types
    (`true == 1`, `true < 2`), in `null <= null` (false), in `.length`, over nothing (asked about null), and after `..` (asked about the
    structures rather than their children); and filters without parentheses are refused. C97
44. `$[*,0]` of RFC 9535 is refused; all other texts of its grammar without filters are accepted, and so are others, such as a path after blanks. C98
45. The expression parser calls itself for every bracket and sign, without a limit, so a text of a few megabytes of `(` can exhaust the stack of a goroutine, which ends the process and cannot be recovered. C100
46. Compiling a path takes a nested call for every operator of a long sum, though parsing it does not: 1+1+...+1 can exhaust the stack too. C101
47. `walkdown` and `eqVal` call themselves for every level of a document, without a limit, so a document that is nested deeply enough ends the process. Documents from encoding/json are limited to 10000 levels by that package; documents made otherwise are not. C103
