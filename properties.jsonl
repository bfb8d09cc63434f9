{"id": "C01", "title": "Compile is total", "statement": "For every byte string, jsonpath.Compile terminates and returns either a compiled path or an error, never both, and never panics.", "quantifier": "every byte string (valid UTF-8 or not), of any length and nesting depth", "why_tests_cant": "the input space is infinite; a hang or panic could hide behind any unusual byte sequence (escapes at end of input, lookahead switching between the two lexers)", "anchors": ["jsonpath.go:Compile", "paths/parsepath.go:ParsePath", "paths/parseexpr.go:expr", "paths/lex.go:lexString", "mach/coder.go:Compile"]}
{"id": "C02", "title": "Eval terminates", "statement": "For every compiled path and every finite JSON document, Eval halts (with results, an error, or a panic): no path makes it loop for ever.", "quantifier": "every accepted path, every document, every map iteration order", "why_tests_cant": "termination over all programs and documents cannot be sampled", "anchors": ["mach/run.go:Run", "mach/run.go:looptop", "mach/run.go:walkdown"]}
{"id": "C03", "title": "Eval never panics", "statement": "No path accepted by Compile can make Eval panic, whatever the document.", "quantifier": "every accepted path, every document", "why_tests_cant": "panics sit at corner values (index wrap-around, field overflow) that no finite test set covers", "anchors": ["mach/run.go:Run", "mach/run.go:valsByKey", "mach/run.go:branch", "mach/run.go:pop", "mach/program.go:mkSmall"]}
{"id": "C04", "title": "The compiled program means what the path says", "statement": "Running the compiled program on a document yields exactly the values (in order), or exactly the error, that a direct step-by-step reading of the path gives: each step applied to the result set of the previous one, each expression evaluated as a tree.", "quantifier": "every path tree, every document, every map iteration order", "why_tests_cant": "the compiler emits jumps, packed operand fields and a shared constant table; correctness must hold for every tree shape and size", "anchors": ["mach/coder.go:Compile", "mach/coder.go:codeExpr", "mach/coder.go:codeLoop", "mach/run.go:Run"]}
{"id": "C05", "title": "Operands survive packing into program words", "statement": "An operator packed together with any in-range signed integer or constant-table index is recovered exactly, the two kinds are never confused, and an integer literal of any 64-bit value is seen by the evaluator with exactly that value.", "quantifier": "every operator, every integer in the signed 23-bit range, every table index, every int64 literal", "why_tests_cant": "2^22 values per operator and two's-complement boundaries", "anchors": ["mach/program.go:mkOrder", "mach/program.go:mkSmall", "mach/program.go:smallInt", "mach/program.go:isSmallInt", "mach/coder.go:codeOp"]}
{"id": "C06", "title": "A successful Eval never returns a nil list", "statement": "Whenever Eval succeeds the returned slice is non-nil (so it encodes as [] and not null), even when nothing was selected.", "quantifier": "every accepted path, every document", "why_tests_cant": "depends on every path through the selection code, including those that return nil internally", "anchors": ["mach/run.go:Run", "mach/run.go:valsByKey"]}
{"id": "C07", "title": "Results come from the document", "statement": "Every value returned by Eval is the document root or one of its descendants: Eval never invents values.", "quantifier": "every accepted path, every document, every map iteration order", "why_tests_cant": "must hold for all expression results and loop states", "anchors": ["mach/run.go:Run", "mach/run.go:looptop", "mach/run.go:valsByKey", "mach/run.go:valsWild"]}
{"id": "C08", "title": "Member selection", "statement": "A .name or ['name'] step maps each object in the result set to its member of that name when present and drops everything else (arrays, scalars, null, objects without it), preserving order.", "quantifier": "every name, every result set", "why_tests_cant": "arbitrary documents and names", "anchors": ["mach/run.go:valsByKey", "mach/run.go:valByKey", "mach/run.go:mapKey"]}
{"id": "C09", "title": "Index selection", "statement": "[n] on an array of length l selects element n when 0<=n<l, element l+n when -l<=n<0, and nothing otherwise; .n does the same without the negative case. Out-of-range never errors.", "quantifier": "every int64 n, every array", "why_tests_cant": "boundary behaviour for all lengths and all 64-bit integers", "anchors": ["mach/run.go:valsByKey", "mach/run.go:valByKey", "mach/run.go:Run"]}
{"id": "C10", "title": "Slice selection", "statement": "[start:end:stride] on an array selects exactly the elements that the Python/JavaScript-style slice rule selects, in that order: bounds default by the sign of the stride, negative bounds count from the end, bounds are clamped, stride 0 selects nothing.", "quantifier": "every int64 start, end and stride, each present or absent, every array length", "why_tests_cant": "three 64-bit parameters and a length, with wrap-around at the extremes", "anchors": ["mach/run.go:sliceEval", "mach/run.go:valsByKey"]}
{"id": "C11", "title": "Wildcard selection", "statement": "* maps each array to its elements in order and each object to its member values (each exactly once, in some order), and drops scalars.", "quantifier": "every result set, every map iteration order", "why_tests_cant": "Go randomises map iteration", "anchors": ["mach/run.go:valsWild", "mach/run.go:applySelection"]}
{"id": "C12", "title": "Union is the ordered concatenation of its elements", "statement": "[e1,e2,...] gives, for each value of the result set in turn, the concatenation in order of what each [ei] alone selects from it (a bag: duplicates kept).", "quantifier": "every list of union elements, every result set", "why_tests_cant": "arbitrary mixtures of indices, names and slices", "anchors": ["mach/run.go:Run", "mach/run.go:valsByKey"]}
{"id": "C13", "title": "Recursive descent visits every descendant exactly once", "statement": "..X applies X to every object and array at or below each value of the result set, each occurrence exactly once, parents before children (pre-order).", "quantifier": "every document, every map iteration order", "why_tests_cant": "unbounded depth and breadth", "anchors": ["mach/run.go:walker", "mach/run.go:walkdown", "mach/run.go:looptop"]}
{"id": "C14", "title": "A filter keeps exactly the children that satisfy it", "statement": "[?(e)] returns, in order, exactly those children (array elements or member values) of the result set for which e, with @ bound to the child, evaluates to a truthy value.", "quantifier": "every filter expression, every result set, every map iteration order", "why_tests_cant": "all expressions and documents; in particular the empty cases", "anchors": ["mach/run.go:Run", "mach/run.go:looptop", "mach/run.go:stepping", "mach/json.go:cvb"]}
{"id": "C15", "title": "Steps compose", "statement": "Evaluating a path p followed by steps q equals applying q to the result set of p; and a step treats the values of the result set independently, so its result on a concatenation of result sets is the concatenation of its results.", "quantifier": "every pair of paths, every document, every split of the result set", "why_tests_cant": "compositionality is a universally quantified law", "anchors": ["mach/run.go:Run", "mach/run.go:applySelection", "mach/run.go:valsByKey", "mach/coder.go:Compile"]}
{"id": "C16", "title": "Map iteration order does not change the selected bag", "statement": "Two evaluations of the same path on the same document return the same values up to order, whatever order Go iterates over maps in.", "quantifier": "every path, every document, every pair of map iteration orders", "why_tests_cant": "the order is randomised by the runtime; tests see a few orders", "anchors": ["mach/run.go:valsWild", "mach/run.go:stepping", "mach/run.go:walkdown", "mach/fns.go:functions"]}
{"id": "C17", "title": "Goroutine scheduling does not change the result", "statement": "Eval's result does not depend on how its producer goroutines are interleaved with the evaluation, and the channel hand-off never deadlocks.", "quantifier": "every schedule of the producer and consumer goroutines, every document", "why_tests_cant": "interleavings are chosen by the scheduler", "anchors": ["mach/run.go:looptop", "mach/run.go:stepping", "mach/run.go:walker", "mach/run.go:Run"]}
{"id": "C18", "title": "A compiled path may be used concurrently", "statement": "Any number of concurrent Evals of one compiled path, on the same or different documents, each return what they would return if run alone, under every interleaving.", "quantifier": "every number of evaluations, every interleaving", "why_tests_cant": "interleavings cannot be enumerated by tests", "anchors": ["jsonpath.go:JSONPath", "mach/doc.go", "mach/run.go:Run"]}
{"id": "C19", "title": "Eval leaves no goroutine behind", "statement": "When Eval returns, every goroutine it started has finished or will finish on its own.", "quantifier": "every path, every document, success or error", "why_tests_cant": "leaks only show under error paths and long runs", "anchors": ["mach/run.go:looptop", "mach/run.go:Run"]}
{"id": "C20", "title": "== is an equality: reflexive and symmetric", "statement": "a == b and b == a give the same answer for all values; a == a holds for every document value that contains no NaN; and between simple values of different types the result is JavaScript's abstract equality.", "quantifier": "every pair of JSON values", "why_tests_cant": "all pairs of recursively structured values", "anchors": ["mach/json.go:eqVal", "mach/json.go:eqNum", "mach/json.go:badNum", "mach/json.go:eqArrayN"]}
{"id": "C21", "title": "!= negates ==, nin negates in", "statement": "a != b is exactly the negation of a == b; x nin L is exactly the negation of x in L; and x in L holds exactly when some element of L is == to x.", "quantifier": "every pair of values, every list", "why_tests_cant": "universally quantified law", "anchors": ["mach/run.go:Run", "mach/json.go:searchJSON", "mach/json.go:eqVal"]}
{"id": "C22", "title": "Truthiness and the values of && and ||", "statement": "a || b yields a when a is truthy and b otherwise; a && b yields a when a is falsy and b otherwise; falsy is exactly null, undefined (failure), false, 0, NaN and the empty string.", "quantifier": "every pair of values", "why_tests_cant": "all value shapes", "anchors": ["mach/json.go:cvb", "mach/run.go:Run"]}
{"id": "C23", "title": "Failure propagates and is contained", "statement": "If an operand of an arithmetic, relational, match, membership, selection or indexing operator is a failed evaluation, the result is a failed evaluation (not an error, not a panic), and a filter whose expression fails does not select the candidate.", "quantifier": "every operator, every operand", "why_tests_cant": "all operator/operand combinations", "anchors": ["mach/run.go:valsOK", "mach/run.go:arith", "mach/run.go:relation", "mach/run.go:Run"]}
{"id": "C24", "title": "Arithmetic", "statement": "+ - * on integers (and booleans) is 64-bit two's complement arithmetic; if either operand is floating-point both are converted and the operation is done in floating point; non-numbers give failure; / and % truncate toward zero on integers and yield failure for a zero divisor, never a trap.", "quantifier": "every pair of values", "why_tests_cant": "64-bit ranges, all type pairs", "anchors": ["mach/run.go:arith", "mach/run.go:divide", "mach/json.go:cvi", "mach/json.go:cvf"]}
{"id": "C25", "title": "Relational operators are coherent", "statement": "On integers, on strings (bytewise order) and on non-NaN floats, exactly one of a<b, a==b, a>b holds, a<=b is a<b or a==b, and a<b iff b>a; comparisons between a string and a non-string, or involving an array, object or null, are false.", "quantifier": "every pair of values", "why_tests_cant": "all pairs", "anchors": ["mach/run.go:relation", "mach/run.go:Run", "mach/json.go:eqNum"]}
{"id": "C26", "title": "min and max", "statement": "min(L) and max(L) of a non-empty list of numbers (or of strings) return an element of the list that is a lower (upper) bound of it; the empty list gives null; mixed or other types give failure.", "quantifier": "every list", "why_tests_cant": "all lists", "anchors": ["mach/fns.go:minMaxArray", "mach/fns.go:maxString", "mach/fns.go:maxArith"]}
{"id": "C27", "title": "sum, prod and avg", "statement": "sum and prod of a list of numbers are the left-to-right floating-point sum and product; avg is the sum divided by the count; a non-number anywhere gives failure; sum([]) is 0, prod([]) is null.", "quantifier": "every list", "why_tests_cant": "all lists", "anchors": ["mach/fns.go:functions", "mach/fns.go:arithArrayOp"]}
{"id": "C28", "title": "String and length functions", "statement": "contains, starts_with and ends_with on strings decide exactly substring, prefix and suffix; contains on an array decides whether an element is ==; length counts runes, elements or members, and equals .length.", "quantifier": "every pair of strings, every value", "why_tests_cant": "all strings", "anchors": ["mach/fns.go:functions", "mach/fns.go:stringArgs", "mach/run.go:Run"]}
{"id": "C29", "title": "Errors are reported exactly when documented", "statement": "Eval returns an error only for: a call of an unknown function or with the wrong number of arguments, an invalid dynamic regular expression, a non-string operand of =~, or a non-array right operand of in/nin; each such operation, when reached, does produce an error; and no partial result accompanies an error.", "quantifier": "every path, every document", "why_tests_cant": "all reachable states", "anchors": ["mach/run.go:Run", "mach/run.go:call"]}
{"id": "C30", "title": "Every path tree can be written and read back", "statement": "For every path and expression tree of the grammar there is a text (its canonical printing) that ParsePath parses back to exactly that tree.", "quantifier": "every tree, of any depth", "why_tests_cant": "infinite set of trees", "anchors": ["paths/parsepath.go:parsePath", "paths/parseexpr.go:expr", "paths/parseexpr.go:primary"]}
{"id": "C31", "title": "Operator precedence and associativity", "statement": "e1 op1 e2 op2 e3 groups to the left iff op1's precedence is at least op2's, with precedences || < && < (== !=) < (< <= > >= =~ in nin) < (+ -) < (* / %), for operands that are primaries.", "quantifier": "every pair of binary operators, every primary operand text", "why_tests_cant": "all operands", "anchors": ["paths/ops.go:precedence", "paths/ops.go:associativity", "paths/parseexpr.go:expr"]}
{"id": "C32", "title": "White space between tokens is insignificant", "statement": "Inserting any white space between tokens of a path does not change what it parses to.", "quantifier": "every token sequence, every white space insertion", "why_tests_cant": "all texts", "anchors": ["paths/lex.go:ws", "paths/lexpath.go:lexPath", "paths/lexexpr.go:lexExpr"]}
{"id": "C33", "title": "String literals denote the bytes they spell", "statement": "For every byte string there is a quoted literal, in either quote style, that lexes to exactly that byte string; ordinary characters stand for themselves, escapes for the character they name, \\uXXXX for its code point in UTF-8 (surrogate pairs combined, lone surrogates replaced by U+FFFD); unescaped control characters and unterminated literals are rejected.", "quantifier": "every byte string, every literal text", "why_tests_cant": "all texts and code points", "anchors": ["paths/lex.go:lexString", "paths/lex.go:escaped"]}
{"id": "C34", "title": "Integer literals", "statement": "A digit sequence in a path or expression denotes its decimal value (leading zeros allowed) and is rejected exactly when it exceeds 2^63-1; a minus sign before an integer in a path denotes its negation for every value that fits in 64 bits.", "quantifier": "every digit sequence", "why_tests_cant": "all lengths and values", "anchors": ["paths/lex.go:lexNumber", "paths/lexpath.go:lexPath"]}
{"id": "C35", "title": "Unions contain only indices, names and slices", "statement": "A bracketed list of two or more elements containing *, a filter or a plain (expr) is always rejected by Compile; a list of indices, names, strings and slices is accepted with exactly those elements in order.", "quantifier": "every element list", "why_tests_cant": "all lists", "anchors": ["paths/parsepath.go:parseSubscript", "paths/parsepath.go:parseValList"]}
{"id": "C36", "title": "Regular-expression literals", "statement": "The text between the slashes is passed to the regular expression compiler unchanged except that \\/ becomes /; an unterminated literal is rejected.", "quantifier": "every pattern text", "why_tests_cant": "all byte strings", "anchors": ["paths/lexexpr.go:lexRegexp", "paths/parseexpr.go:primary1"]}
{"id": "C37", "title": "Eval does not modify the document", "statement": "No evaluation writes to any array or map reachable from the document passed to it.", "quantifier": "every path, every document", "why_tests_cant": "aliasing through append and sub-slicing must be excluded on all executions", "anchors": ["mach/run.go:Run", "mach/run.go:valsByKey", "mach/run.go:slicing", "mach/run.go:applySelection"]}
{"id": "C38", "title": "Eval is repeatable", "statement": "Evaluating a compiled path any number of times, on any documents, never changes later results: a compiled path carries no state from one Eval to the next.", "quantifier": "every history of evaluations", "why_tests_cant": "all histories", "anchors": ["jsonpath.go:Eval", "mach/run.go:Run", "mach/program.go:Program"]}
{"id": "C39", "title": "Slice bounds may be expressions", "statement": "As the grammar documents, start, end and stride of a slice may be (expr), and the slice uses the values of those expressions.", "quantifier": "every expression used as a bound, every array", "why_tests_cant": "all expressions", "anchors": ["paths/parsepath.go:parseSlice", "paths/parsepath.go:parseSliceVal", "mach/run.go:sliceEval", "mach/json.go:cvi"]}
{"id": "C40", "title": "Index expressions are converted to keys", "statement": "A [(expr)] step uses the expression's value as key or index: strings and integers as they are, other values converted to an integer.", "quantifier": "every expression, every document", "why_tests_cant": "all values", "anchors": ["mach/run.go:Run", "mach/coder.go:codeVal", "mach/coder.go:valOp"]}
{"id": "C41", "title": "jpath writes one result list per input value", "statement": "The jpath command writes exactly one result list per input value, in input order, up to the first decoding, evaluation or encoding error, at which it stops with an error status naming that value.", "quantifier": "every sequence of input values", "why_tests_cant": "all input streams", "anchors": ["cmd/jpath/jpath.go:readValues", "cmd/jpath/jpath.go:readLines", "cmd/jpath/jpath.go:main"]}
{"id": "C42", "title": "MustCompile and String", "statement": "MustCompile panics exactly when Compile returns an error and otherwise returns the same path; String returns the text given to Compile.", "quantifier": "every byte string", "why_tests_cant": "all inputs", "anchors": ["jsonpath.go:MustCompile", "jsonpath.go:String", "jsonpath.go:Compile"]}
{"id": "C43", "title": "&& and || short-circuit as in JavaScript", "statement": "When the left operand decides a && b or a || b, nothing in the right operand can affect the outcome, including by raising an error.", "quantifier": "every pair of expressions, every document", "why_tests_cant": "all expressions", "anchors": ["mach/run.go:Run", "mach/coder.go:codeExpr"]}
{"id": "C44", "title": "Numeric functions", "statement": "abs, ceil, floor and to_number: abs of an int64 is its magnitude or a failure on overflow; ceil and floor are the identity on integers; to_number is the identity on numbers and parses strings; other types give failure, never an error or panic.", "quantifier": "every value", "why_tests_cant": "all values", "anchors": ["mach/fns.go:functions"]}
{"id": "C45", "title": "Parse errors point into the text", "statement": "Every offset reported in a parse error lies within the text given to Compile.", "quantifier": "every rejected byte string", "why_tests_cant": "all inputs", "anchors": ["paths/rd.go:offset", "paths/parser.go:expect"]}
{"id": "C46", "title": "Accepted paths follow the documented grammar", "statement": "ParsePath accepts a text only if its tokens derive from the documented grammar, and the tree returned is the one the derivation describes.", "quantifier": "every accepted byte string", "why_tests_cant": "all inputs", "anchors": ["paths/parsepath.go:parsePath", "paths/parseexpr.go:expr", "syntax/doc.go"]}
{"id": "C47", "title": "Equal constants share a table slot without confusion", "statement": "Constants of a path that are equal and of the same kind share one slot of the program's constant table, different constants (or the same text as name and as string) never do, and a path with too many constants is rejected rather than miscompiled.", "quantifier": "every path tree", "why_tests_cant": "all paths and sizes", "anchors": ["mach/coder.go:mkVal", "mach/program.go:data", "mach/program.go:value"]}
{"id": "C48", "title": "The path $ returns the root", "statement": "Eval of $ returns exactly the one-element list holding the document.", "quantifier": "every document", "why_tests_cant": "all documents", "anchors": ["mach/run.go:Run", "paths/parsepath.go:parsePath"]}
{"id": "C49", "title": "A literal with a fraction denotes the nearest float", "statement": "A number literal with a decimal point and perhaps an exponent in an expression denotes the IEEE double nearest to its decimal value (ties to even); if that would be infinite the literal is rejected. A value that is a double is read exactly.", "quantifier": "every such literal of any length, every exponent", "why_tests_cant": "infinitely many texts; ties and overflow need exact arithmetic", "anchors": ["paths/lex.go:lexNumber", "paths/parseexpr.go:primary1"]}
{"id": "C50", "title": "Member selection in expressions", "statement": "In an expression e.name is the member of that name when e is an object that has one, and a failed evaluation otherwise (never an error).", "quantifier": "every value, every name", "why_tests_cant": "all values and names; one name is treated apart", "anchors": ["mach/run.go:Run (OpDot)", "mach/run.go:valByKey"]}
{"id": "C51", "title": "Indexing in expressions", "statement": "In an expression e[i] selects as the step [(i)]: from an array the element at the integer i (from the end when negative), from an object the member named by the string i; other values of i are converted to an integer; a string selects nothing from an array; anything else fails.", "quantifier": "every value and every index value", "why_tests_cant": "all values, all integers, all strings", "anchors": ["mach/run.go:Run (OpIndex)", "mach/run.go:valByKey", "mach/json.go:cvi"]}
{"id": "C52", "title": "Unary minus", "statement": "-e is the negation of a number (two's complement for integers, the sign bit for floats), with booleans as 0 and 1; anything else gives a failed evaluation.", "quantifier": "every value", "why_tests_cant": "all values", "anchors": ["mach/run.go:Run (OpNeg)", "mach/json.go:cvi"]}
{"id": "C53", "title": "Array literals", "statement": "[e1,...,en] in an expression is the array of the values of its elements in order, failed ones included; indexing it gives back the i-th value and .length is n.", "quantifier": "every list of element expressions, every document", "why_tests_cant": "lists of any length", "anchors": ["mach/run.go:Run (OpArray)", "paths/parseexpr.go:primary1"]}
{"id": "C54", "title": "Arrays against strings", "statement": "== between an array and a string is true exactly for the string that JavaScript's toString gives for the array: the texts of its elements with commas between them, none for null, numbers with the fewest digits that denote them. The text of a number is equal to that number.", "quantifier": "every array, every string, every float", "why_tests_cant": "all 2^64 floats and their shortest decimals", "anchors": ["mach/json.go:eqArrayS", "mach/json.go:cvs", "mach/json.go:eqVal"]}
{"id": "C55", "title": "The message of MustCompile", "statement": "If Compile rejects a text, MustCompile panics with jsonpath: Compile(L): M, where M is the message of Compile's error and L is a literal of Go that denotes the text; so the message determines the text.", "quantifier": "every byte string, valid UTF-8 or not", "why_tests_cant": "all texts, with every escape that quoting may need", "anchors": ["jsonpath.go:MustCompile", "jsonpath.go:quote"]}
{"id": "C56", "title": "The text of a program", "statement": "String of the program of a compiled path never panics, and it tells programs apart: paths whose programs have the same text have the same results.", "quantifier": "every pair of paths, every document", "why_tests_cant": "all pairs of paths; separators inside strings, numbers against names, constants against orders", "anchors": ["mach/text.go:String", "mach/text.go:trimOp", "paths/val.go:String"]}
{"id": "C57", "title": "Arrays and objects against simple values", "statement": "== between an array or object and a number, boolean, string, null or failure is that of ECMA-262 5.1, 11.9.3: the array or object is converted to its text, and the text to a number unless it is compared with a string. The operands can be exchanged.", "quantifier": "every array and object, every simple value", "why_tests_cant": "all floats and all nestings; integers against floats, numeric texts, booleans as numbers", "anchors": ["mach/json.go:eqVal", "mach/json.go:eqArrayN", "mach/json.go:eqArrayS", "mach/json.go:eqNum", "mach/json.go:cvi"]}
{"id": "C58", "title": "Nothing is selected twice", "statement": "A path without unions that descends with .. at most once finds each of its results at a place of its own in the document: the results are the values at a list of different places. So there are never more results than values in the document. Without descent, every result lies as many levels down as the path has steps.", "quantifier": "every such path with any expressions in it, every document, every order of map iteration", "why_tests_cant": "places are not visible in the results, and duplicates arise only from combinations of steps", "anchors": ["mach/run.go:applySelection", "mach/run.go:valsByKey", "mach/run.go:stepping", "mach/run.go:walker", "mach/run.go:walkdown"]}
{"id": "C59", "title": "Every value has an address", "statement": "For every value of a document, the path that spells out the names and positions on the way to it, such as $[\"a\"][0], compiles and its evaluation gives exactly that value. A path of names and indices in any notation gives at most one value; if nothing is at the place, the result is empty.", "quantifier": "every document, every place in it, names with any bytes", "why_tests_cant": "all names, including empty ones and ones with quotes, control characters and invalid UTF-8; any depth", "anchors": ["paths/parsepath.go:parseSubscript", "paths/lex.go:lexString", "mach/run.go:valsByKey", "mach/run.go:valByKey"]}
{"id": "C60", "title": "Notations are interchangeable", "statement": "Paths that differ only in notation give the same results in the same order, or the same error: .a, ['a'], [a], [('a')] and .('a'); .1, [1] and [(1)]; a missing start of a slice and 0; a missing stride and 1; each also after .. and in unions.", "quantifier": "every pair of such paths, every document, every order of map iteration", "why_tests_cant": "all paths, with any rewriting of any of their steps", "anchors": ["mach/run.go:valsByKey", "mach/run.go:valByKey", "mach/run.go:sliceEval", "paths/parsepath.go:parseMember", "paths/parsepath.go:parseSubscript"]}
{"id": "C61", "title": "The algebra of filters", "statement": "After the same path, [?(a && b)] selects what both [?(a)] and [?(b)] select, [?(a || b)] what at least one of them selects, and [?(!a)] the rest, all in the order in which [*] gives them. So [?(a)] and [?(!a)] share the selection of [*] between them.", "quantifier": "every path, every two expressions without keys(), every document, every order of map iteration", "why_tests_cant": "all expressions and documents; values that are neither true nor false, failures of expressions", "anchors": ["mach/run.go:stepping", "mach/run.go:Run", "mach/json.go:cvb"]}
{"id": "C62", "title": "Printed values can be read", "statement": "String of an expression without operands is a text that ParseScriptExpression reads as the same expression, and String of a name, integer, string or slice, in brackets after $, is read as that selector.", "quantifier": "every number, string, name and slice that a path can contain", "why_tests_cant": "all 2^64 numbers and all byte strings, with every escape that printing may use", "anchors": ["paths/expr.go:String", "paths/val.go:String", "paths/parseexpr.go:ParseScriptExpression", "paths/lex.go:lexString"]}
{"id": "C63", "title": "Computed names are JavaScript's texts", "statement": "On objects, $[(e)], $.(e) and o[i] select the member named by JavaScript's ToString of the value of the expression.", "quantifier": "every expression value, every object, every order of map iteration", "why_tests_cant": "all 2^64 numbers and all nested arrays and objects; tests use strings and small integers", "anchors": ["mach/run.go:mapKey", "mach/run.go:valByKey", "mach/run.go:valsByKey"]}
{"id": "C64", "title": "Messages of evaluation errors", "statement": "The message of an error of Eval names the operator as it is written in the path and shows the text of the operand it rejects; for a call it gives the name of the function and the numbers of arguments needed and given.", "quantifier": "every compiled path, every document, every operand value", "why_tests_cant": "tests compare errors only with nil; the operands are all values, nested to any depth", "anchors": ["mach/run.go:Run", "mach/run.go:call", "paths/ops.go:String"]}
{"id": "C65", "title": "The algebra of slices", "statement": "On arrays [:] and [:n,n:] select what [*] does, for every n; [n] selects what [n:n+1] does unless n is -1, and [-1] what [-1:] does; [a:b:-1] is the reverse of [b+1:a+1]; [a:b] is a piece of the array, and [a:b:c] has every c-th element of it, or of [a:b:-1] if c is negative; with stride 0 nothing is selected.", "quantifier": "every array, every 64-bit bound and stride, present or absent, for which Eval does not panic (C10)", "why_tests_cant": "the laws relate the results of different paths for all bounds, inside and outside the array", "anchors": ["mach/run.go:sliceEval", "mach/run.go:slicing", "mach/run.go:valsByKey"]}
{"id": "C66", "title": "How jpath ends", "statement": "jpath exits with status 0 only if the path was accepted, all inputs were opened and read to the end and a list was written for each of their values; it then writes nothing to standard error, and otherwise a message. A rejected path is shown in it as a Go literal; an error in an input is shown with the names of command and file and the position of the value, which the message determines. It never fails to encode the results for values that were decoded from JSON.", "quantifier": "every list of arguments, every path, every sequence of inputs, every decoder and map iteration order", "why_tests_cant": "a test runs the command on a few files; the property is about all inputs and all errors", "anchors": ["cmd/jpath/jpath.go:main", "cmd/jpath/jpath.go:readValues", "cmd/jpath/jpath.go:readLines", "cmd/jpath/jpath.go:errorf", "cmd/jpath/jpath.go:quote"]}
{"id": "C67", "title": "An expression is the same alone and in a path", "statement": "ParseScriptExpression accepts a text, with a tree, exactly if a path with that text as a filter is accepted with that tree as the filter; and so for a subscript or member in parentheses. After any path, such a text may stand as a filter, subscript, member or bound of a slice, and has the same tree there.", "quantifier": "every byte string, every path before it", "why_tests_cant": "all texts, with every kind of token at the end", "anchors": ["paths/parseexpr.go:ParseScriptExpression", "paths/parsepath.go:parseExpr", "paths/lex.go:lexString"]}
{"id": "C68", "title": "How often a value is selected", "statement": "Every result of a path is found at a place in the document, and no place is selected more often than there are ways to read the path as leading to it: each step leads one level down, once for each selector of a union, and a step with .. any number of levels. So without .. a place is selected at most as often as the product of the sizes of the unions, and the number of results is at most the number of values in the document times that product times, for every .. but the first, the height of the document plus one. Paths of * and ..* reach this number of ways at every place.", "quantifier": "every path with any expressions in it, every document, every order of map iteration", "why_tests_cant": "places are not visible in the results; the number of ways grows with the depth of the document and with the length of the path", "anchors": ["mach/run.go:applySelection", "mach/run.go:Run (OpUnion, OpNestUnion)", "mach/run.go:valsByKey", "mach/run.go:walker", "mach/run.go:walkdown", "mach/run.go:stepping"]}
{"id": "C69", "title": "An error is reported where the text goes wrong", "statement": "When Compile or ParseScriptExpression rejects a text and reports the offset k, the parser has not looked beyond the byte after it: every text that begins with the same k+2 bytes is rejected with the same error, whatever follows them. So no such beginning can be completed to a path.", "quantifier": "every text of a path or an expression, every reported offset, every continuation", "why_tests_cant": "a test can try a few continuations, not all of them", "anchors": ["paths/lex.go:offset", "paths/lex.go:tokenErr", "paths/lex.go:isNext", "paths/lexpath.go:lexPath", "paths/lexexpr.go:lexExpr", "paths/parser.go:expect", "paths/parsepath.go:parsePath", "paths/parseexpr.go:ParseScriptExpression"]}
{"id": "C70", "title": "How long an evaluation takes", "statement": "Evaluation takes no orders for $, and for every further step as many as its arguments have nodes, plus one; a filter or a step with .. takes one, and two more than its arguments have nodes for each value it looks at: the elements and members of the values it is given, or all the arrays and objects in them, and once for nothing at all. So it takes at most as many orders as the program has, times the number of values in the document, times the sizes of the unions, times, for every .. but the first, the height of the document plus one. Without unions and with at most one .. that is at most 4/3 of the length of the text times the number of values in the document.", "quantifier": "every path whose program has fewer than 2^22 orders (as that of every text of at most 3*2^20 bytes), every document, every order of map iteration", "why_tests_cant": "a bound on the running time for all documents and all paths; a test measures a few", "anchors": ["mach/run.go:Run", "mach/run.go:looptop", "mach/run.go:stepping", "mach/run.go:walker", "mach/coder.go:codeLoop", "mach/coder.go:codeStep"]}
{"id": "C71", "title": "The Go types of integers do not matter", "statement": "Two documents that differ only in the Go types of their integers, int or int64, give the same results from every path, but for those types, and the same errors, but for those types in the values that an error mentions: no selection, comparison, conversion or function tells them apart.", "quantifier": "every path whose program has fewer than 2^22 orders (as that of every text of at most 3*2^20 bytes), every pair of documents that differ only in those types, every order of map iteration", "why_tests_cant": "relates two runs on every pair of documents, through every operator and function; a test has to pick the types for each place", "anchors": ["mach/json.go:isInt", "mach/json.go:cvi", "mach/json.go:cvf", "mach/json.go:cvb", "mach/json.go:cvs", "mach/json.go:typeOf", "mach/json.go:eqVal", "mach/fns.go:functions", "mach/run.go:Run"]}
{"id": "C72", "title": "Syntax trees through their methods", "statement": "Kid(c) of a node gives its child number c, or nothing if there is none. In every tree that ParsePath and ParseScriptExpression return, IsLeaf is false just for the nodes of type Inner. IsStructure holds for just the values for which IsObject or IsArray does, and these never both hold. Paths whose steps have the same texts, by Step.String, give the same results.", "quantifier": "every node and every 64-bit integer; every tree that can be parsed; every value; every two paths, every document, every order of map iteration", "why_tests_cant": "that the text of a step determines what it does is about all pairs of steps; trees of any shape", "anchors": ["paths/expr.go:Kid", "paths/expr.go:IsLeaf", "paths/path.go:String", "mach/json.go:IsObject", "mach/json.go:IsArray", "mach/json.go:IsStructure"]}
{"id": "C73", "title": "@ in computed keys", "statement": "In [(e)] and .(e), also after .., the key is computed for every value that is subscripted, with @ standing for that value: $[(@.length-1)] selects the last element of an array.", "quantifier": "every expression, every path before it, every document, every order of map iteration", "why_tests_cant": "expressions with @ at any depth; all documents; a test that finds nothing selected may be taken for a correct result", "anchors": ["mach/run.go:Run (OpMember, OpSelect, OpNestMember, OpNestSelect, OpCurrent)", "mach/run.go:looptop", "mach/coder.go:codeStep"]}
{"id": "C74", "title": "The algebra of descent", "statement": "For every step s, q..s selects what q.s and q.*..s select together, and what q.s and q..*.s select together, each as often.", "quantifier": "every path q, every step, every document, every order of map iteration", "why_tests_cant": "the laws relate the results of different paths on documents of any depth", "anchors": ["mach/run.go:walker", "mach/run.go:walkdown", "mach/run.go:looptop", "mach/run.go:Run (OpNestMember, OpNestSelect, OpNestUnion, OpNestWild)", "mach/coder.go:codeLoop"]}
{"id": "C75", "title": "One line of numbers", "statement": "< is transitive and irreflexive on all values. On numbers == and <= are transitive, and all comparisons are those of the exact values: equal numbers may replace each other in comparisons, whether they are integers, floats or booleans.", "quantifier": "every pair and triple of values", "why_tests_cant": "transitivity between integers and floats fails only at 2^53 and beyond; all triples", "anchors": ["mach/run.go:relation", "mach/run.go:Run (OpLT, OpLE, OpEQ, OpGE, OpGT, OpNE)", "mach/json.go:eqVal", "mach/json.go:cvf"]}
{"id": "C76", "title": "The laws of arithmetic", "statement": "+ and * are commutative on all values. On numbers they are associative and * distributes over +, a-b is a+(-b), and for integers a/b*b + a%b is a, with a remainder smaller than b and of the sign of a.", "quantifier": "every pair and triple of values, with wraparound of 64-bit integers", "why_tests_cant": "the laws relate the results of different expressions for all numbers", "anchors": ["mach/run.go:arith", "mach/run.go:Run (OpAdd, OpSub, OpMul, OpDiv, OpMod, OpNeg)"]}
{"id": "C77", "title": "Paths without filters select by shape", "statement": "A path without filters, whose computed keys refer neither to $ nor to @, does not look at scalars: on documents of the same shape it selects values at the same places in the same order, or fails with the same error. So to replace scalars in a document is to replace them in the results.", "quantifier": "every such path, every two documents of the same shape, every relation between their scalars, every order of map iteration", "why_tests_cant": "relates the runs on all documents of a shape, with any scalars in them", "anchors": ["mach/run.go:Run", "mach/run.go:valsByKey", "mach/run.go:valByKey", "mach/run.go:walker", "mach/run.go:applySelection", "mach/run.go:sliceEval"]}
{"id": "C78", "title": "What is selected grows with the document", "statement": "When members are added to objects and elements to the ends of arrays anywhere in a document, whatever a path without filters selected before is still selected, itself grown perhaps, and no two results become one. In particular, a path of names, integers, unions of these and *, with or without .., selects exactly what these steps say one after the other, each as often as it is reached.", "quantifier": "every path without filters, every two documents of which one has grown into the other, every order of map iteration", "why_tests_cant": "relates the runs on two documents of any size, with additions at any places", "anchors": ["mach/run.go:Run", "mach/run.go:valsByKey", "mach/run.go:valByKey", "mach/run.go:walker", "mach/run.go:applySelection"]}
{"id": "C79", "title": "Relational operators as in JavaScript", "statement": "For simple values, e1 < e2, e1 <= e2, e1 > e2 and e1 >= e2 count as true exactly when JavaScript's operators give true: strings are compared with strings in the order of their characters, everything else as numbers, and nothing holds for NaN and failures.", "quantifier": "every two simple values (null, booleans, integers, floats, strings, failures), all four operators, every document and operand expression", "why_tests_cant": "ranges over all pairs of values, in particular all pairs of Unicode strings, whose order in UTF-8 and UTF-16 differs only in places", "anchors": ["mach/run.go:relation", "mach/run.go:Run (OpLT, OpLE, OpGE, OpGT)", "mach/json.go:cvf", "mach/json.go:cvi"]}
{"id": "C80", "title": "Arithmetic as in JavaScript", "statement": "For simple values, +, -, *, / and % yield what they do in JavaScript: the same float, an integer where JavaScript has a float that stands for it, and the joined strings for + with a string.", "quantifier": "every two simple values (null, booleans, integers, floats, strings, failures), all five operators, every document and operand expression", "why_tests_cant": "ranges over all pairs of numbers, where integers and floats agree only within 53 bits", "anchors": ["mach/run.go:arith", "mach/run.go:divide", "mach/run.go:Run (OpAdd, OpSub, OpMul, OpDiv, OpMod)"]}
{"id": "C81", "title": "Results come in document order", "statement": "The results of a path are values of the document in document order: elements of an array in order of their positions, everything below one element or member before anything below the next, each as many levels down as the path has steps. The members of an object come in any order, but what lies below one member comes together.", "quantifier": "every path, every document, every order of map iteration", "why_tests_cant": "orders of results on documents of any depth and size; a few flat documents show nothing of the grouping", "anchors": ["mach/run.go:Run", "mach/run.go:valsByKey", "mach/run.go:applySelection", "mach/run.go:stepping", "mach/run.go:sliceEval", "mach/run.go:looptop"]}
{"id": "C82", "title": "Equal expressions are interchangeable", "statement": "If two expressions have the same value on a document, or fail with the same error, for every value of @, then one may replace the other anywhere in a path, in filters and computed keys and at any depth within other expressions, without changing the results on that document. So an expression without @ may be replaced by the literal for its value, and a valid regular expression on the right of =~ may be written as a literal or as a string.", "quantifier": "every two expressions, every path and every set of places in it, every document, every order of map iteration", "why_tests_cant": "ranges over all contexts in which an expression can stand", "anchors": ["mach/coder.go:codeExpr", "mach/coder.go:codeStep", "mach/run.go:Run"]}
{"id": "C83", "title": "Paths are told apart by documents", "statement": "Two paths of names, integers and * have the same results up to order on all documents exactly if their steps select by the same names and indices, however they are written. If they do not, there is a document from which one of them selects 1 and the other selects nothing. A negative integer after a dot, and an integer so large that no array has such an index, count as the names that their digits spell.", "quantifier": "every two paths of names, integers and *, every document, every order of map iteration", "why_tests_cant": "says that no two paths are conflated, which needs a document made for each pair", "anchors": ["mach/run.go:valsByKey", "mach/run.go:valByKey", "mach/run.go:valsWild", "mach/run.go:Run"]}
{"id": "C84", "title": "Paths are joined as texts", "statement": "If a and $r are paths, then so is ar: it has the steps of both, and if r does not mention $ it makes of the results of a what $[*]r makes of a list of them. After the address of a value, such as $[\"a\"][0], r gives what $r gives with that value as the document: the same results in the same order, or the same error.", "quantifier": "every two texts of paths, with any white space, every document and place in it, every order of map iteration", "why_tests_cant": "ranges over all pairs of texts, joined at all kinds of tokens, and all places of all documents", "anchors": ["paths/parsepath.go:ParsePath", "paths/lexpath.go:lexPath", "mach/run.go:Run", "jsonpath.go:Compile"]}
{"id": "C85", "title": "When results are the same in every run", "statement": "A path of names, indices, slices, unions and computed keys, without *, filters, .. and calls of keys(), gives the same results in the same order, or the same error, in every run, whatever the order in which Go iterates over maps. So does every path on a document in which no object has more than one member.", "quantifier": "every such path and document, every two orders of map iteration at every place where one is chosen", "why_tests_cant": "a run shows one of the orders; that none of them matters is a statement about all", "anchors": ["mach/run.go:Run", "mach/run.go:looptop", "mach/run.go:stepping", "mach/run.go:walkdown", "mach/run.go:valsWild", "mach/fns.go:keys"]}
{"id": "C86", "title": "Names of members mean nothing by themselves", "statement": "If the members of all objects in a document are given other names, different ones for different names, then a path with these names selects the same values in the same order, with their members renamed, or fails with the same error. This is so for paths without filters and other expressions, if the names that the integers of the path stand for, such as 1, are kept.", "quantifier": "every such path, every document, every injective renaming, every order of map iteration", "why_tests_cant": "that no name is treated specially is a statement about all names; length is special in expressions, and a test would have to guess such names", "anchors": ["mach/run.go:valByKey", "mach/run.go:valsByKey", "mach/run.go:valsWild", "mach/run.go:walkdown", "mach/run.go:mapKey"]}
{"id": "C87", "title": "The shape and size of programs", "statement": "The program of a path of n bytes has at most 4(n-1)/3 orders and not more constants than orders. It is a sequence of orders and loops: a loop has no loop in it, it is left to the order after its end and repeated from the order after its beginning. OpSlice, OpExp and OpError do not occur. Every path of up to 3 MB is compiled, if it can be parsed, and to a program with correct jumps.", "quantifier": "every text", "why_tests_cant": "the bound is about all texts, and the first path whose jumps are wrong has three million bytes", "anchors": ["mach/coder.go:Compile", "mach/coder.go:codeLoop", "mach/coder.go:codeStep", "mach/program.go:mkSmall", "mach/program.go:pc"]}
{"id": "C88", "title": "Tests for presence", "statement": "If all filters of a path are built from @, $, constants, members, elements at constant places, !, && and ||, they see only the shape of a document and which of its values are true: on two documents that differ only in numbers and booleans, each of them true in the one if and only if it is true in the other, the path gives results at the same places, or the same error.", "quantifier": "every such path, every pair of documents, every order of maps", "why_tests_cant": "compares the results on all pairs of documents; a comparison or a conversion that leaks a number shows only for some of them", "anchors": ["mach/run.go:Run", "mach/run.go:valByKey", "mach/json.go:cvb", "mach/coder.go:codeLoop"]}
{"id": "C89", "title": "Documents decoded with UseNumber", "statement": "It makes no difference to a path whether the numbers of a document are json.Number values (as the decoder gives them with UseNumber) or the nearest floats: the results are at the same places.", "quantifier": "every path, every document, every order of maps", "why_tests_cant": "all paths and all numbers; an operator that forgets json.Number fails only for documents decoded in the unusual way, which tests rarely use", "anchors": ["mach/json.go:typeOf", "mach/json.go:eqVal", "mach/json.go:cvb", "mach/json.go:cvi", "mach/json.go:isArith", "mach/json.go:isSimple", "mach/run.go:relation", "mach/run.go:arith", "mach/fns.go:functions"]}
{"id": "C90", "title": "== on documents decides whether they are the same JSON value", "statement": "Two documents are equal in an expression if and only if they are the same JSON value: the same null, boolean or string, the same number whatever its Go type, arrays of the same elements, objects with the same members in any order. So == is transitive on documents, and in and contains tell whether a value is among the elements.", "quantifier": "every pair (triple) of documents", "why_tests_cant": "documents of any depth; a comparison that is wrong for one shape of object passes tests on others", "anchors": ["mach/json.go:eqVal", "mach/json.go:eqNum", "mach/json.go:searchJSON", "mach/json.go:typeOf"]}
{"id": "C91", "title": "Messages of parse errors are true of the text", "statement": "What the message of an error of Compile says is in the text: the token it names ends at the offset it gives, the end is named only at the end, a character it calls unexpected is at its offset, a literal it calls unclosed or too large is there, and a construct it rejects in a union is in the text together with a comma.", "quantifier": "every text and every message", "why_tests_cant": "messages depend on lookahead and on the position of the reader in texts of any length; tests compare a few messages", "anchors": ["paths/lex.go:tokenErr", "paths/lex.go:isNext", "paths/lex.go:look", "paths/parser.go:expect", "paths/parsepath.go:parsePath", "paths/parseexpr.go:primary1"]}
{"id": "C92", "title": "What an evaluation holds", "statement": "At every point of a program the number of values on the stack of the machine and the number of loops it is in are the same however the point is reached, for whatever document: the sum of what the orders before it add and take away. There is never more than one loop, nor more than one value for two bytes of the text, and an evaluation that gives a result has left every loop and taken every value.", "quantifier": "every path, document and iteration order, and every state of an evaluation", "why_tests_cant": "a stack that is not level at the end of a step shows only in later steps or in memory, and a count that does not fit shows only in texts of many megabytes", "anchors": ["mach/run.go:push", "mach/run.go:popN", "mach/run.go:looptop", "mach/run.go:Run", "mach/coder.go:codeStep", "mach/coder.go:codeLoop", "mach/coder.go:codeExpr"]}
{"id": "C93", "title": "Texts of paths may be cut between steps", "statement": "A text is a path with the steps of p followed by those of q exactly if it is a text of a path with the steps of p followed by some text r such that $r is a path with the steps of q; so every path is a $ followed by texts that are single steps after $. Cut after any step, what Compile accepts (in at most 3 MB) is two texts that it accepts; and if the whole path gives a result, so does the first part, of which the second part makes the result of the whole.", "quantifier": "every text, every place between two steps, every document and iteration order", "why_tests_cant": "whether a text can be cut depends on lookahead of the lexer at the cut; tests use few texts, without white space", "anchors": ["paths/parsepath.go:ParsePath", "paths/parsepath.go:parsePath", "paths/lexpath.go:lexPath", "jsonpath.go:Compile", "mach/run.go:Run"]}
{"id": "C94", "title": "An evaluation runs one goroutine at a time", "statement": "At any time, whatever else is running, at most one of the goroutines that an evaluation has started has not ended, and that is the one started last; so an error leaves at most one behind. In all an evaluation starts at most one goroutine for each filter and each step after .. of the path, however large the document; a path without these starts none. (Paths of at most 3 MB.)", "quantifier": "every path, document, iteration order and schedule, among any number of other evaluations", "why_tests_cant": "a goroutine too many shows in no result; counting them at the right moment depends on the schedule", "anchors": ["mach/run.go:Run", "mach/run.go:looptop", "mach/run.go:stepping", "mach/run.go:walker", "mach/coder.go:Compile"]}
{"id": "C95", "title": "Integers and floats of the same value are selected alike", "statement": "Two documents that differ only in whether integers of at most 53 bits are held as integers or as floats give values at the same places, and the same errors, for every path whose filters compare values by <, <=, > and >=, or by ==, !=, in and nin with literals (numbers, booleans, null, strings that are not numbers), and test for presence.", "quantifier": "every such path, pair of documents and iteration order", "why_tests_cant": "decoders differ in the types they give to numbers, and tests use one decoder", "anchors": ["mach/json.go:eqVal", "mach/json.go:eqNum", "mach/json.go:cvi", "mach/json.go:cvf", "mach/run.go:relation"]}
{"id": "C96", "title": "Queries of RFC 9535 without filters", "statement": "The text of every query of RFC 9535 that has no filter compiles, and evaluating it gives one of the nodelists that the RFC allows for the document: names, *, indices and slices, child and descendant segments, with one or several selectors.", "quantifier": "every query, every text of it (brackets, or dots where the RFC allows them), every document and iteration order", "why_tests_cant": "the RFC is a standard outside the code; conformance suites try a few hundred queries", "anchors": ["mach/run.go:Run", "mach/run.go:slicing", "mach/run.go:walkdown", "mach/run.go:valsByKey", "paths/parsepath.go:parsePath", "paths/parsepath.go:parseSubscript"]}
{"id": "C97", "title": "Filters of RFC 9535", "statement": "The text of every query of RFC 9535 with filters whose expressions test singular queries, compare singular queries and literals, and combine these by !, && and ||, compiles; and evaluating it gives one of the nodelists that the RFC allows for the document.", "quantifier": "every query with such filters, every document and iteration order", "why_tests_cant": "the RFC is a standard outside the code; the expressions are unbounded in depth and the comparisons range over all values", "anchors": ["mach/run.go:Run", "mach/run.go:relation", "mach/run.go:looptop", "mach/json.go:eqVal", "mach/json.go:cvb", "paths/parsepath.go:parseSubscript"]}
{"id": "C98", "title": "The syntax of RFC 9535", "statement": "Every text that the grammar of RFC 9535 allows for a query without filters compiles, with blanks, quotes, escapes and shorthands as the RFC gives them, and stands for the query that the RFC says; and the Normalized Path of every node gives exactly that node.", "quantifier": "every text of the grammar, every document and place", "why_tests_cant": "the texts are unbounded and combine blanks, quotes, escapes and surrogate pairs in all ways", "anchors": ["paths/parsepath.go:parsePath", "paths/parsepath.go:parseSubscript", "paths/lex.go:lexString", "paths/lex.go:escaped", "paths/lex.go:ws", "paths/lex.go:lexNumber"]}
{"id": "C99", "title": "The order of elements matters only to indices and slices", "statement": "A path of names and *, with or without .., selects from a document the same values, up to order, when the elements of arrays anywhere in the document are put in another order.", "quantifier": "every such path, every two documents that differ in the order of elements only, every iteration order", "why_tests_cant": "it relates two evaluations over all documents and all permutations at every level", "anchors": ["mach/run.go:Run", "mach/run.go:walkdown", "mach/run.go:looptop", "mach/run.go:valsByKey"]}
{"id": "C100", "title": "The stack of the expression parser", "statement": "ParseScriptExpression, and the parser of expressions in paths, never needs more than a fixed number of nested calls.", "quantifier": "every text and every size of stack", "why_tests_cant": "the depth of calls grows with the text, and no test shows a bound for all texts", "anchors": ["paths/parseexpr.go:ParseScriptExpression", "paths/parseexpr.go:parseScriptExpr", "paths/parseexpr.go:expr", "paths/parseexpr.go:primary", "paths/parseexpr.go:primary1", "paths/parseexpr.go:unary", "paths/parseexpr.go:application", "paths/parseexpr.go:parseExprList"]}
{"id": "C101", "title": "The stack of the compiler", "statement": "Compile never needs more than a fixed number of nested calls to make a program of a path that has been parsed.", "quantifier": "every path and every size of stack", "why_tests_cant": "the depth of calls grows with the height of the expressions in a path, and no test shows a bound for all of them", "anchors": ["mach/coder.go:Compile", "mach/coder.go:codeLoop", "mach/coder.go:codeStep", "mach/coder.go:codeArgs", "mach/coder.go:codeVal", "mach/coder.go:codeExpr"]}
{"id": "C102", "title": "How long compiling takes", "statement": "Compile takes at most 51 steps for each byte of the text and 17 more, ParsePath at most 40 steps for each byte of the text and 15 more, and ParseScriptExpression at most 40 for each byte and 12 more, whether the text is accepted or not: the parsers do not go back, and no nesting of brackets, operators or lists makes them slower than linear. A step is a call of a function of the parser or the coder, a turn of one of their loops, or a byte that the scanner moves past.", "quantifier": "every text, of any length and nesting", "why_tests_cant": "measuring some texts shows nothing about the texts that are made to take long", "anchors": ["paths/parsepath.go:ParsePath", "paths/parsepath.go:parsePath", "paths/parsepath.go:parseSubscript", "paths/parsepath.go:parseVal", "paths/parsepath.go:parseSlice", "paths/parseexpr.go:ParseScriptExpression", "paths/parseexpr.go:expr", "paths/parseexpr.go:primary", "paths/parseexpr.go:primary1", "paths/parseexpr.go:application", "paths/parseexpr.go:parseExprList", "paths/parser.go:expect", "paths/lex.go:look", "jsonpath.go:Compile", "mach/coder.go:Compile", "mach/coder.go:codeStep", "mach/coder.go:codeExpr"]}
{"id": "C103", "title": "The stack of an evaluation", "statement": "Eval never needs more than a fixed number of nested calls to compare values (eqVal) and to walk down a document (walkdown).", "quantifier": "every path, every document, every order of members and every size of stack", "why_tests_cant": "the depth of calls grows with the nesting of the document and of the lists in expressions, and no test shows a bound for all of them", "anchors": ["jsonpath.go:Eval", "mach/run.go:Run", "mach/run.go:walker", "mach/run.go:walkdown", "mach/json.go:eqVal", "mach/json.go:searchJSON", "mach/run.go:call"]}
{"id": "C104", "title": "How long comparisons take", "statement": "In an expression, a == b and a != b take at most as many calls of eqVal as there are values in a, and as there are values in b, whatever order the members of objects come in; v in list, v nin list and contains(list, v) take at most as many as there are values in the list, and at most the number of its elements times the number of values in v. A search goes no further than the first equal element, and a comparison of arrays no further than the first difference. A document without NaN compared with itself takes exactly one call for each of its values.", "quantifier": "every pair of documents, every list and every order of members", "why_tests_cant": "measuring some documents shows nothing about those made to take long", "anchors": ["mach/json.go:eqVal", "mach/json.go:searchJSON", "mach/fns.go:functions", "mach/run.go:Run"]}
