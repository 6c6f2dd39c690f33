{"id": "C01", "title": "NULL absorbs arithmetic", "statement": "In a VQL expression, NULL + v, NULL - v, v - NULL, NULL * v, v * NULL, NULL / v and v / NULL all evaluate to NULL for every value v, whatever protocol implementations the host application registered. v + NULL is NULL for every built-in scalar or time v, and for an array v it is the array with one NULL appended.", "quantifier": "every value (scalars of all numeric contents, strings, times, nested arrays and dicts, host objects) and every set of registered protocol implementations", "why_tests_cant": "The value space is infinite and includes host-defined types; a table of samples cannot show that no branch order lets a NULL escape.", "anchors": ["protocols/protocol_add.go:AddDispatcher.Add", "protocols/protocol_sub.go:SubDispatcher.Sub", "protocols/protocol_mul.go:MulDispatcher.Mul", "protocols/protocol_div.go:DivDispatcher.Div"]}
{"id": "C02", "title": "Integer arithmetic is exact modulo 2^64", "statement": "For integer operands, +, - and * return an integer congruent to the mathematical result modulo 2^64, and equal to it whenever it fits in a signed 64 bit integer; they never turn into a float, NULL or an error.", "quantifier": "all pairs of signed 64 bit integers", "why_tests_cant": "2^128 pairs; overflow boundaries are exactly what sampling misses.", "anchors": ["protocols/protocol_add.go:intAdd", "protocols/protocol_sub.go:SubDispatcher.Sub", "protocols/protocol_mul.go:MulDispatcher.Mul", "utils/utils.go:ToInt64"]}
{"id": "C03", "title": "Division traps exactly a zero divisor", "statement": "For numeric operands a / b is NULL exactly when b is zero and is otherwise the floating point quotient of a by b.", "quantifier": "all pairs of numbers (integers, floats, booleans used as numbers)", "why_tests_cant": "The divisor test sits in three different type branches; only an argument over every pair of types and values shows each branch tests the divisor.", "anchors": ["protocols/protocol_div.go:DivDispatcher.Div"]}
{"id": "C04", "title": "Concatenation laws", "statement": "String + string is the byte concatenation unless the combined length exceeds 100,000,000 bytes in which case it is NULL. Adding two arrays, or an array and a non-array built-in value, is list concatenation with the non-array treated as a one element list, so lengths add up, element order is kept and array addition is associative.", "quantifier": "all strings of any length, all arrays and values", "why_tests_cant": "Unbounded lengths and nesting.", "anchors": ["protocols/protocol_add.go:AddDispatcher.Add", "protocols/protocol_add.go:convertToSlice"]}
{"id": "C05", "title": "String repetition is bounded and never crashes", "statement": "For a string s and integer n, s * n is n copies of s when n >= 0 and the result is at most 100,000,000 bytes, NULL otherwise; evaluation never panics.", "quantifier": "all strings and all signed 64 bit counts", "why_tests_cant": "The size guard uses wrapping 64 bit arithmetic; only all-values reasoning shows whether wraparound defeats it.", "anchors": ["protocols/protocol_mul.go:MulDispatcher.Mul"]}
{"id": "C06", "title": "Truth value of every value", "statement": "The truth value used by AND, OR, NOT, WHERE and if() is: NULL false; booleans themselves; numbers true iff strictly positive; strings, arrays and dicts true iff non empty; a stored query true iff it produces at least one row; any other object as decided by the most recently registered applicable implementation and false when there is none.", "quantifier": "all values and all registration histories", "why_tests_cant": "Infinite value space, open set of host types.", "anchors": ["protocols/protocol_bool.go:BoolDispatcher.Bool", "protocols/stored_query.go:_StoredQueryBool.Bool"]}
{"id": "C07", "title": "Equality is an equivalence on plain data", "statement": "VQL '=' is reflexive, symmetric and insensitive to dict key order: a = a; a = b iff b = a; dicts are equal iff they have the same set of keys with equal values; arrays are equal iff same length and elementwise equal.", "quantifier": "all data values of any nesting depth", "why_tests_cant": "Recursion through nested arrays and dicts plus cross-type coercions give infinitely many type/value pairs.", "anchors": ["protocols/protocol_eq.go:EqDispatcher.Eq", "protocols/protocol_eq.go:_ArrayEq", "protocols/ordereddict.go:_DictEq.Eq"]}
{"id": "C08", "title": "Ordering comparisons form a consistent total order", "statement": "For any two numbers (no NaN) or two strings exactly one of a < b, a = b, a > b holds, a < b iff b > a, and < is transitive; for any values at most one of a < b, a = b, a > b holds.", "quantifier": "all pairs/triples of values", "why_tests_cant": "Trichotomy and transitivity are universally quantified over infinite domains and mixed types.", "anchors": ["protocols/protocol_lt.go:LtDispatcher.Lt", "protocols/protocol_gt.go:GtDispatcher.Gt", "protocols/protocol_lt.go:intLt", "protocols/protocol_lt.go:intEq"]}
{"id": "C09", "title": "Every comparison operator the grammar accepts means what it says", "statement": "For every operator accepted between two operands: a != b and a <> b are the negation of a = b, a <= b is a < b or a = b, a >= b is a > b or a = b, a =~ b matches a against pattern b, a IN b (in any accepted spelling) is membership, and NOT x is the complement of the truth value of x. The result is always a boolean.", "quantifier": "all operator spellings and all operand values", "why_tests_cant": "Operator/operand product is infinite; missing cases only show on the untested spelling.", "anchors": ["vfilter.go:_ConditionOperand.Reduce", "vfilter.go:vqlLexer"]}
{"id": "C10", "title": "AND / OR chains: value, truth and short circuit", "statement": "A chain of AND/&& terms is truthy iff all terms are truthy and evaluates terms left to right stopping at the first falsy one; a chain of OR/|| terms is truthy iff some term is truthy and stops at the first truthy one. Terms after the stopping point are never evaluated. The value is TRUE/FALSE for AND/OR and, when the chain is decided by its last (&&) or first truthy (||) term, that term's value for && and ||.", "quantifier": "all chains of any length, any operator mix, any term values and side effects", "why_tests_cant": "Chain length and the effects of the terms are unbounded.", "anchors": ["vfilter.go:_AndExpression.Reduce", "vfilter.go:_OrExpression.Reduce"]}
{"id": "C11", "title": "Slices behave like Python slices", "statement": "X[s:e] of a string or array with any integers s, e (each optional) returns exactly the elements Python would return, never fails, and X[:k] + X[k:] = X for every k.", "quantifier": "all sequences of any length, all optional signed 64 bit bounds", "why_tests_cant": "Clamping of negative/out of range bounds over all lengths.", "anchors": ["protocols/utils.go:getRanges", "protocols/protocol_associative.go:DefaultAssociative.Associative", "vfilter.go:_MemberExpression.Reduce"]}
{"id": "C12", "title": "Indexing is in bounds or NULL", "statement": "X[i] of an array or string of length n is element i for 0 <= i < n, element n+i for -n <= i < 0, and NULL for every other i; it never crashes. Indexing a lazy stored query agrees with indexing the array of its rows.", "quantifier": "all arrays/strings and all signed 64 bit indexes", "why_tests_cant": "Off-by-one and wraparound at the extremes.", "anchors": ["protocols/protocol_associative.go:DefaultAssociative.Associative", "protocols/stored_query.go:_StoredQueryAssociative.Associative", "materializer/in_memory.go:InMemoryMatrializer.Associative"]}
{"id": "C13", "title": "Column extraction from arrays and queries", "statement": "X.field on an array gives the list of the field values of the elements that have the field, in order; on a stored query it gives one entry per row in row order with NULL for rows lacking the column; on a missing variable or NULL it gives NULL.", "quantifier": "all arrays, queries and field names", "why_tests_cant": "Unbounded number of elements and shapes.", "anchors": ["protocols/protocol_associative.go:AssociativeDispatcher.Associative", "protocols/protocol_associative.go:DefaultAssociative.Associative"]}
{"id": "C14", "title": "Membership", "statement": "a IN array is true iff some element equals a under VQL equality; string IN string iff it is a substring; string IN dict iff it is a key; nothing is IN NULL; other combinations are false unless a registered implementation applies.", "quantifier": "all values", "why_tests_cant": "Existential over unbounded collections.", "anchors": ["protocols/protocol_membership.go:MembershipDispatcher.Membership"]}
{"id": "C15", "title": "Every value can be iterated as rows", "statement": "Iterating a value (FROM, foreach row=, chain args) yields: for an array one row per non-NULL element in order (dict elements themselves, others as {_value: x}); for a dict exactly itself; for a stored query its rows; for NULL nothing; for anything else one row {_value: v}. Hence every row delivered for a non-query is a dict.", "quantifier": "all values", "why_tests_cant": "Unbounded arrays and shapes.", "anchors": ["protocols/protocol_iterate.go:IterateDispatcher.Iterate", "protocols/protocol_iterate.go:_SliceIterator"]}
{"id": "C16", "title": "Regex cache is invisible", "statement": "The result of target =~ pattern depends only on target and pattern, never on which matches were evaluated before on the scope: patterns '.', '.*' and '' match everything including NULL, an invalid pattern matches nothing, an array matches iff some element matches.", "quantifier": "all sequences of previous matches, patterns and targets", "why_tests_cant": "History dependence through a shared cache.", "anchors": ["protocols/protocol_regex.go:RegexDispatcher.Match", "protocols/protocol_regex.go:Match"]}
{"id": "C17", "title": "Most recently registered protocol wins", "statement": "For every operator, among the registered implementations that declare themselves applicable the one registered last is the one invoked; registering on a copied dispatcher does not change the original and vice versa; operands of built-in type pairs never reach a registered implementation for arithmetic on two integers, two strings or NULL.", "quantifier": "all sequences of registrations, copies and operand values", "why_tests_cant": "Histories and host-defined predicates are unbounded.", "anchors": ["protocols/protocol_add.go:AddDispatcher.AddImpl", "scope/dispatcher.go:protocolDispatcher.AddProtocolImpl", "scope/dispatcher.go:protocolDispatcher.Copy"]}
{"id": "C18", "title": "Innermost binding wins", "statement": "Resolving a name returns the value from the most recently appended variable set that contains it; NULL stands in for nil; if no set contains it but some set has a default value, the default of the most recently appended such set is returned; otherwise the name is reported absent.", "quantifier": "all stacks of variable sets of any depth and all names", "why_tests_cant": "Unbounded stack depth and contents.", "anchors": ["scope/scope.go:Scope.Resolve", "scope/scope.go:Scope._ResolveVars"]}
{"id": "C19", "title": "Child scopes are isolated", "statement": "After a scope is copied, variables appended to the copy are never visible in the original or in other copies, and variables appended to the original afterwards are never visible in the copy; variables visible at the time of the copy stay visible in it unless shadowed.", "quantifier": "all interleavings of copy, append and resolve over any tree of scopes", "why_tests_cant": "Histories of operations over arbitrarily many scopes.", "anchors": ["scope/scope.go:Scope.Copy", "scope/scope.go:Scope.AppendVars", "scope/scope.go:Scope.Resolve"]}
{"id": "C20", "title": "Destructors run once, in reverse order, children first", "statement": "Closing a scope runs every destructor registered on it and on all its descendants exactly once, each scope's in reverse registration order and a descendant's before its ancestor's; closing again runs nothing; registering on a closed scope is refused with an error.", "quantifier": "all histories of copy / add destructor / close on any scope tree, including destructors that register further destructors", "why_tests_cant": "Unbounded trees and histories; double-run and lost-destructor bugs depend on history.", "anchors": ["scope/scope.go:Scope.Close", "scope/scope.go:Scope.AddDestructor", "scope/scope.go:_destructors.RemoveDestructors", "scope/scope.go:Scope.Copy"]}
{"id": "C21", "title": "Closing a scope closes all its descendants", "statement": "After Close on a scope returns, every scope derived from it by Copy (transitively, and before the close) is closed, no matter how many siblings were copied and closed in between.", "quantifier": "all histories of copy and close, including ones that trigger the children list compaction", "why_tests_cant": "The compaction of the children list triggers only after more than ten closed children in particular orders.", "anchors": ["scope/scope.go:Scope.Copy", "scope/scope.go:Scope.Close"]}
{"id": "C22", "title": "Recursion is cut off", "statement": "Evaluating any query terminates as far as VQL-level recursion is concerned: the nesting depth of scopes is bounded by the overflow limit (1000), a self referencing LET evaluates to NULL/no rows beyond it.", "quantifier": "all programs (sets of LET definitions and expressions)", "why_tests_cant": "Termination for all programs.", "anchors": ["scope/scope.go:Scope.CheckForOverflow", "vfilter.go:_SymbolRef.Reduce", "vfilter.go:Plugin.Eval", "protocols/protocol_associative.go:AssociativeDispatcher.Associative"]}
{"id": "C23", "title": "Aggregator state lookup and isolation", "statement": "An aggregate function reads and writes the state of the nearest enclosing scope that has an aggregator context; giving a scope a fresh context makes aggregates below it start from scratch and leaves the state seen by every other scope unchanged.", "quantifier": "all scope trees and histories of set/get/modify", "why_tests_cant": "History and tree shape are unbounded.", "anchors": ["scope/scope.go:Scope.GetAggregatorCtx", "scope/scope.go:Scope.SetAggregatorCtx", "aggregators/aggregators.go:AggregatorCtx.Modify"]}
{"id": "C24", "title": "Scope checkpoints restore variables", "statement": "Marshalling a scope and unmarshalling it into another scope makes every marshalled variable resolve there to the same value, except for names starting with $, NULL, config and Artifact and the ignore list; plain variables and LET definitions keep innermost-wins resolution.", "quantifier": "all scopes and variable names", "why_tests_cant": "All variable stacks and values.", "anchors": ["scope/marshal.go:Scope.Marshal", "scope/marshal.go:ScopeUnmarshaller.Unmarshal", "marshal/marshaller.go:Marshal", "marshal.go:_StoredQuery.Marshal", "marshal.go:StoredExpression.Marshal"]}
{"id": "C25", "title": "WHERE is a filter", "statement": "SELECT ... FROM source WHERE cond emits, in source order, exactly one row for each source row for which cond is truthy, and nothing else; without WHERE it emits one row for each source row.", "quantifier": "all sources, column lists and conditions (as arbitrary functions of the row)", "why_tests_cant": "Row streams and conditions are unbounded.", "anchors": ["vfilter.go:_Select.processSingleRow", "vfilter.go:_Select.Eval"]}
{"id": "C26", "title": "LIMIT takes a prefix", "statement": "LIMIT n returns the first min(n, total) rows the same query returns without LIMIT, in the same order, for every n >= 0, and stops consuming its source once the limit is reached.", "quantifier": "all queries, all integers n and all interleavings of producer and consumer", "why_tests_cant": "All n including 0 and negatives and all stream lengths.", "anchors": ["vfilter.go:_Select.Eval"]}
{"id": "C27", "title": "Column list shape", "statement": "The columns of an output row are: for SELECT *, the source row's columns in source order; each explicit expression adds a column named by its alias (or its text); a * that appears after explicit columns adds only columns not already present; no column appears twice in an emitted row.", "quantifier": "all column lists and source rows", "why_tests_cant": "Unbounded column lists and collisions of names.", "anchors": ["vfilter.go:_SelectExpression.Transform", "vfilter.go:_SelectExpression.mergeStarRow", "lazy.go:LazyRowImpl.AddColumn", "lazy.go:MaterializedLazyRow"]}
{"id": "C28", "title": "Name resolution in WHERE and columns", "statement": "In WHERE a name refers to the aliased output column if there is one, else to the source row's column, else to the enclosing scope; in a column expression a name refers to the source row's column, else the enclosing scope, never to another alias.", "quantifier": "all rows, aliases and enclosing scopes", "why_tests_cant": "All collisions of names at three levels.", "anchors": ["vfilter.go:_Select.processSingleRow", "vfilter.go:_SelectExpression.Transform", "scope/scope.go:Scope._ResolveVars"]}
{"id": "C29", "title": "Columns are evaluated lazily and at most once per row", "statement": "While one source row is processed each column expression is evaluated at most once however often it is referred to in WHERE, GROUP BY or ORDER BY, and not at all if the row is rejected by WHERE before the column is needed.", "quantifier": "all column lists, conditions and reference patterns", "why_tests_cant": "All access sequences on the row cache.", "anchors": ["lazy.go:LazyRowImpl.Get", "lazy.go:MaterializedLazyRow", "lazy.go:LazyExprImpl.ReduceWithScope"]}
{"id": "C30", "title": "GROUP BY partitions the rows", "statement": "SELECT ... GROUP BY k emits one row per distinct value (by string form) of k among the rows passing WHERE, in order of first appearance; each row contributes to exactly one group; the emitted row is the one computed for the last row of the group, and aggregates in it range over exactly that group's rows.", "quantifier": "all row streams, keys and conditions", "why_tests_cant": "Arbitrary streams and key collisions.", "anchors": ["grouper/grouper.go:DefaultGrouper.Group", "vfilter_group.go:GroupbyActor.GetNextRow", "vfilter_group.go:_Select.EvalGroupBy"]}
{"id": "C31", "title": "Aggregate functions compute what they name", "statement": "After evaluating an aggregate over a sequence of rows in one context: count() is the number of evaluations, sum() the sum modulo 2^64, min()/max() an element of the sequence that no other element is less / greater than (first such for min; last such for max), enumerate() the list of all items in order.", "quantifier": "all sequences of items of any length", "why_tests_cant": "Induction over sequences of any length, wraparound.", "anchors": ["functions/aggregates.go:_CountFunction.Call", "functions/aggregates.go:_SumFunction.Call", "functions/aggregates.go:_MinFunction.Call", "functions/aggregates.go:_MaxFunction.Call", "functions/aggregates.go:_EnumerateFunction.Call"]}
{"id": "C32", "title": "ORDER BY sorts", "statement": "ORDER BY c [DESC] emits a permutation of the rows the query produces without it, such that no row's key is less (greater for DESC) than an earlier row's key, with rows lacking a key treated as NULL and NULL sorted lowest.", "quantifier": "all row sequences and key types", "why_tests_cant": "All permutations of all lengths; comparator validity over all value pairs.", "anchors": ["sort/sort.go:DefaultSorter.Sort", "sort/sort.go:DefaultSorterCtx.Less", "vfilter.go:_Select.Eval"]}
{"id": "C33", "title": "LET = is by name, LET <= is by value", "statement": "A variable defined with LET x <= e keeps the value e had when the statement ran, whatever happens later; a variable defined with LET x = e is re-evaluated at every reference in the environment of the reference, so later redefinitions of names used in e are seen.", "quantifier": "all programs, expressions and subsequent definitions", "why_tests_cant": "All subsequent histories.", "anchors": ["vfilter.go:VQL.Eval", "vfilter.go:_SymbolRef.Reduce", "stored.go:StoredExpression.Reduce"]}
{"id": "C34", "title": "Calling a LET function", "statement": "Calling f(a=e1, ...) for LET f(a, b=d) = body evaluates the arguments in the caller's scope, binds parameters over the caller's scope, uses the default for missing parameters that have one, and leaves the caller's bindings untouched; parameters shadow same-named variables.", "quantifier": "all definitions, argument lists and calling scopes", "why_tests_cant": "All scopes/argument combinations.", "anchors": ["vfilter.go:_SymbolRef.Reduce", "vfilter.go:buildArgsFromParameters", "stored.go:applyDefaults", "stored.go:_StoredQuery.Call"]}
{"id": "C35", "title": "if() evaluates only the chosen branch", "statement": "if(condition, then, else) as a function or as a plugin evaluates the condition once, then only the chosen branch; a missing branch yields NULL (function) or no rows (plugin).", "quantifier": "all conditions and branches including side effecting and failing ones", "why_tests_cant": "All branch computations.", "anchors": ["functions/if.go:_IfFunction.Call", "plugins/if.go:_IfPlugin.Call"]}
{"id": "C36", "title": "chain() concatenates", "statement": "chain(a=..., b=..., ...) emits all rows of its first argument, then all of its second and so on, in argument order.", "quantifier": "all numbers of arguments and row streams", "why_tests_cant": "Unbounded.", "anchors": ["plugins/chain.go:_ChainPlugin.Call"]}
{"id": "C37", "title": "flatten() is the cartesian expansion", "statement": "flatten(query) emits for each input row one row for each combination of one element from every array valued column, with the same columns in the same order, scalar columns unchanged and empty arrays left as they are; the number of rows is the product of the non-empty array lengths.", "quantifier": "all rows with any number of columns and array lengths", "why_tests_cant": "Products over unboundedly many columns.", "anchors": ["plugins/flatten.go:flatten", "plugins/flatten.go:makeDict", "plugins/flatten.go:_FlattenPluginImpl.Call"]}
{"id": "C38", "title": "foreach() is a union over rows for every schedule", "statement": "If foreach(row, query, workers) completes without cancellation, its output is, for every scheduling of the workers, an interleaving of the query results of each row: each row's results appear exactly once, in their own order; with one worker the output is exactly the concatenation in row order.", "quantifier": "all row lists, queries, worker counts and schedules", "why_tests_cant": "All interleavings.", "anchors": ["plugins/foreach.go:_ForeachPluginImpl.Call", "plugins/foreach.go:workerPool"]}
{"id": "C39", "title": "Cancelling a query always ends it", "statement": "After the context is cancelled every plugin and operator stops: whatever the schedule, the output channel is eventually closed and no goroutine of the query stays blocked; rows already delivered are a prefix (sub-multiset for parallel foreach) of what the uncancelled query would deliver.", "quantifier": "all cancellation points and schedules", "why_tests_cant": "All crash points and interleavings.", "anchors": ["plugins/foreach.go:workerPool.RunScope", "vfilter.go:_Select.Eval", "sort/sort.go:DefaultSorter.Sort", "plugins/chain.go:_ChainPlugin.Call"]}
{"id": "C40", "title": "range() enumerates", "statement": "range(start, end, step) with positive step (0 or absent means 1) emits start, start+step, ... while less than end and then stops.", "quantifier": "all 64 bit start, end, step", "why_tests_cant": "Wraparound near the 64 bit limits.", "anchors": ["plugins/range.go:RangePlugin.Call"]}
{"id": "C41", "title": "Subselect results unwrap predictably", "statement": "A { SELECT } used as a column or value gives the list of rows, each row with exactly one column replaced by that column's value, and a list of exactly one item replaced by the item.", "quantifier": "all subqueries and row shapes", "why_tests_cant": "All result shapes.", "anchors": ["vfilter.go:_AliasedExpression.Reduce"]}
{"id": "C42", "title": "SELECT FROM a variable", "statement": "SELECT * FROM x for a LET variable or field x yields: the elements of an array value in order, the rows of a stored query, the value itself as the only row otherwise; an unknown symbol yields no rows and no failure.", "quantifier": "all values and symbol paths", "why_tests_cant": "All value shapes.", "anchors": ["vfilter.go:Plugin.Eval", "vfilter.go:Plugin.resolveSymbol", "vfilter.go:Plugin.evalSymbol"]}
{"id": "C43", "title": "Response batches lose nothing", "statement": "For every query, row limit m >= 1, encoder that always succeeds and every timing of the periodic flush, the JSON parts sent contain every row exactly once in order, every part has at most m rows, part numbers are 0,1,2,... without gaps, and the stream ends with one final part.", "quantifier": "all row streams, batch sizes and schedules of timer, rows and cancellation", "why_tests_cant": "All interleavings of timer and rows.", "anchors": ["api.go:GetResponseChannel"]}
{"id": "C44", "title": "Statements are split in order with their comments", "statement": "MultiParse returns the statements in source order, and MultiParseWithComments attaches to each statement exactly the comments that precede it, losing and duplicating none.", "quantifier": "all sequences of statements and comments", "why_tests_cant": "Unbounded sequences.", "anchors": ["vfilter.go:MultiVQL.GetStatements"]}
{"id": "C45", "title": "String literals decode exactly", "statement": "Every byte string has a quoted literal that decodes back to it, in each of the three quoting styles that can express it; decoding never fails or reads out of bounds on any input; unknown escapes drop only the backslash, and malformed hex escapes keep the characters as written.", "quantifier": "all byte strings", "why_tests_cant": "All strings including truncated escapes.", "anchors": ["utils/unquote.go:Unquote", "utils/unquote.go:decode_hex"]}
{"id": "C46", "title": "Dotted identifiers split and unquote exactly", "statement": "Splitting an identifier built by joining components with dots, each component optionally wrapped in backticks (necessarily so when it contains a dot), gives back exactly the components.", "quantifier": "all component lists", "why_tests_cant": "All strings.", "anchors": ["utils/unquote.go:SplitIdent", "utils/unquote.go:Unquote_ident"]}
{"id": "C47", "title": "Token positions are exact", "statement": "Tokens returned by Tokenize are in source order and each token's end position is its start advanced by exactly the token text: byte offset by its byte length, line by its newlines, column by the characters since the last newline.", "quantifier": "all token texts and start positions", "why_tests_cant": "All texts including multi byte characters.", "anchors": ["tokenizer.go:findEndPos", "tokenizer.go:Tokenize"]}
{"id": "C48", "title": "Error reporting never crashes", "statement": "Building the context snippet of a parse error never indexes outside the query text, for every error position the parser can report (0..len inclusive, also for the empty query).", "quantifier": "all expressions and offsets", "why_tests_cant": "All lengths and offsets, especially 0 and the end.", "anchors": ["vfilter.go:reportError"]}
{"id": "C49", "title": "Formatting is semantics preserving", "statement": "Formatting a parsed query or expression and parsing it again gives the same syntax tree, so stored queries replayed from a checkpoint mean the same.", "quantifier": "all syntax trees", "why_tests_cant": "Unbounded nesting of all constructs.", "anchors": ["visitor.go:FormatToString", "visitor.go:Visitor.Visit", "vfilter.go:Parse", "marshal.go:_StoredQuery.Marshal"]}
{"id": "C50", "title": "Layout choice never changes the tokens", "statement": "Whatever layout the formatter picks (line width, line breaking strategy, trial layouts), the sequence of non-blank text fragments emitted is the same.", "quantifier": "all trees, options and layout choices", "why_tests_cant": "All combinations of nested layout trials.", "anchors": ["visitor.go:Visitor.abTest", "visitor.go:Visitor.merge", "visitor.go:Visitor.line_break"]}
{"id": "C51", "title": "Outline is complete", "statement": "The outline of a statement lists its columns in order and every function call that occurs in its expressions outside sub-queries, in source order.", "quantifier": "all syntax trees", "why_tests_cant": "Unbounded nesting.", "anchors": ["outline.go:Outline", "outline.go:collectExpressionFunctions"]}
{"id": "C52", "title": "Argument parsing contract", "statement": "Parsing call arguments into a declared argument struct succeeds iff every required argument is present, every present argument is acceptable to its field's parser and no argument is undeclared; on success each declared field holds the parsed value or keeps its default when absent, and no two fields influence each other.", "quantifier": "all argument dicts and field declarations", "why_tests_cant": "All subsets/supersets of fields.", "anchors": ["arg_parser/parser.go:Parser.Parse", "arg_parser/args.go:ExtractArgsWithContext"]}
{"id": "C53", "title": "Keyword dict expansion", "statement": "Passing **=dict to a call is the same as passing the dict's entries as arguments, with explicitly written arguments and expansion merged in order, later entries overriding earlier ones; free-form parsing returns exactly the undeclared arguments.", "quantifier": "all argument dicts", "why_tests_cant": "All dict contents.", "anchors": ["arg_parser/args.go:NormalizeArgs", "arg_parser/parser.go:Parser.ParseAsFreeForm"]}
{"id": "C54", "title": "List arguments keep their elements", "statement": "A string-list argument receives one string per element of the supplied list, in order: a scalar becomes a one element list.", "quantifier": "all lists", "why_tests_cant": "All lists of mixed shapes.", "anchors": ["arg_parser/args.go:_ExtractStringArray", "arg_parser/args.go:_ExtractAnyArray"]}
{"id": "C55", "title": "Unary minus negates every time", "statement": "-x evaluates to the arithmetic negation of x at every evaluation of the expression, e.g. for each row of a query.", "quantifier": "all sequences of evaluations of the same expression", "why_tests_cant": "History of evaluations of a shared syntax node.", "anchors": ["vfilter.go:_SymbolRef.getFunction", "vfilter.go:_SymbolRef.maybeNegate"]}
{"id": "C56", "title": "Queries are repeatable", "statement": "Evaluating the same parsed query twice on the same scope, with the same variables and deterministic plugins, gives the same rows.", "quantifier": "all queries and evaluation histories", "why_tests_cant": "State hidden in the shared AST and scope.", "anchors": ["vfilter.go:VQL.Eval", "vfilter.go:_SymbolRef.callFunction", "functions/aggregates.go:Aggregator"]}
{"id": "C57", "title": "Lambda application", "statement": "Applying a lambda to exactly as many values as it has parameters evaluates its body with each parameter bound to the value in the same position; any other number of values gives NULL.", "quantifier": "all lambdas and argument lists", "why_tests_cant": "All arities.", "anchors": ["lambda.go:Lambda.Reduce", "lambda.go:Lambda.GetParameters"]}
{"id": "C58", "title": "Throttler can always be closed", "statement": "Closing the time throttler any number of times is safe, and after it is closed ChargeOp never blocks; while open, the number of admitted operations never exceeds the number of ticks.", "quantifier": "all interleavings of charge, tick and close", "why_tests_cant": "All schedules.", "anchors": ["throttle.go:TimeThrottler.ChargeOp", "throttle.go:TimeThrottler.Close"]}
{"id": "C59", "title": "Materialized rows survive re-reading", "statement": "A materialized query yields the same rows in the same order every time it is selected from, and indexing/slicing/len agree with that list.", "quantifier": "all row lists and read histories", "why_tests_cant": "All histories.", "anchors": ["materializer/in_memory.go:InMemoryMatrializer.Eval", "materializer/in_memory.go:InMemoryMatrializer.Associative", "types/stored_query.go:Materialize"]}
{"id": "C60", "title": "Row normalisation is total and depth bounded", "statement": "Converting any row to a dict for output terminates, yields only plain data (no lazy values), keeps the row's column order and values, and replaces structure nested deeper than the limit by NULL.", "quantifier": "all rows of any nesting", "why_tests_cant": "Unbounded nesting.", "anchors": ["utils/dict/dict.go:RowToDict", "utils/dict/dict.go:normalize_value"]}
{"id": "C61", "title": "Built-in value functions", "statement": "len() of an array, string or dict is its number of elements/bytes/keys and 0 for anything else; get(item, member) follows a dotted path and yields the default when any step is missing; encode(hex) is injective and has twice as many characters as input bytes; dict() has exactly the given keys.", "quantifier": "all inputs", "why_tests_cant": "All inputs.", "anchors": ["functions/functions.go:LenFunction.Call", "functions/functions.go:_GetFunction.Call", "functions/functions.go:_EncodeFunction.Call", "functions/functions.go:_DictFunc.Call"]}
{"id": "C62", "title": "Mixed number arithmetic is float arithmetic", "statement": "When one of two numbers is a float and the other an integer or a float, a + b, a - b and a * b are the float sum, difference and product of the two numbers in the order written, whatever protocol implementations are registered.", "quantifier": "all pairs of numbers with at least one float and all registration histories", "why_tests_cant": "All pairs of 64 bit values and any set of registered implementations.", "anchors": ["protocols/protocol_add.go:AddDispatcher.Add", "protocols/protocol_sub.go:SubDispatcher.Sub", "protocols/protocol_mul.go:MulDispatcher.Mul"]}
{"id": "C63", "title": "A quoted name means the same everywhere", "statement": "An identifier written in backticks denotes the same variable, member, parameter or column name where it is defined and where it is referenced.", "quantifier": "all identifier names", "why_tests_cant": "Two different decoders must agree on every name, including dots, spaces, multi byte characters and backslashes.", "anchors": ["utils/unquote.go:Unquote_ident", "utils/unquote.go:SplitIdent", "vfilter.go:VQL.Eval", "vfilter.go:_SymbolRef.getFunction"]}
{"id": "C64", "title": "split cuts at every separator and loses nothing", "statement": "split(string=s, sep_string=p) with non-empty p cuts s at the first occurrence of p, at the first one after it, and so on: it gives exactly the pieces in between, at least one, none of them contains p, and writing p between them gives s back. An empty separator is reported and gives NULL.", "quantifier": "all strings and all non-empty separators", "why_tests_cant": "Overlapping and adjacent separators and separators at the ends give unboundedly many cases.", "anchors": ["functions/functions.go:_SplitFunction.Call"]}
{"id": "C65", "title": "Registrations are seen by exactly the scopes that share them", "statement": "GetFunction, GetPlugin, GetContext and protocol dispatch on a scope see exactly what was last registered under the name on that scope or on a scope that shares its registry: Copy and clearing the context share functions and plugins with the original, NewScope makes a registry of its own that starts with what the original had. An implementation that satisfies several protocols serves all of them, and clearing the context keeps the explainer.", "quantifier": "all sequences of scope creations, copies, context resets and registrations, all scopes and names", "why_tests_cant": "Sharing depends on the whole history of creations, copies and resets of all scopes.", "anchors": ["scope/dispatcher.go:protocolDispatcher.Copy", "scope/dispatcher.go:protocolDispatcher.WithNewContext", "scope/dispatcher.go:protocolDispatcher.AddProtocolImpl", "scope/dispatcher.go:protocolDispatcher.AppendFunctions", "scope/scope.go:Scope.NewScope", "scope/scope.go:Scope.ClearContext"]}
{"id": "C66", "title": "Suggestions for an unknown plugin", "statement": "GetSimilarPlugins(name) returns each registered plugin whose name contains a part of the given name between underscores exactly once, in ascending order, whatever order the registry is walked in.", "quantifier": "all names, all sets of registered plugins, all iteration orders of Go maps", "why_tests_cant": "Iteration order of Go maps is random; a test sees a few orders.", "anchors": ["scope/dispatcher.go:protocolDispatcher.GetSimilarPlugins"]}
{"id": "C67", "title": "version() reports the plugin or function in force", "statement": "version(plugin=p) gives the version of the plugin that a query would call under that name, version(function=f) that of the function, NULL if there is none; a plugin name takes precedence.", "quantifier": "all registration histories, scopes and names", "why_tests_cant": "Depends on the whole registration history.", "anchors": ["scope/version.go:_GetVersion.Call"]}
{"id": "C68", "title": "The scope of a running query stays open", "statement": "A destructor that a plugin attaches to its scope is accepted and runs only after the query has ended: a scope stays open and keeps its destructors until it or a scope it was derived from is closed, and no caller closes the scope of a query that it has started and that still runs.", "quantifier": "all histories of scope operations; all interleavings of the caller of a stored query with its goroutine", "why_tests_cant": "The order of caller and goroutine is up to the Go scheduler, and the state of other scopes is arbitrary.", "anchors": ["stored.go:_StoredQuery.Call", "stored.go:_StoredQuery.Eval", "scope/scope.go:Scope.AddDestructor", "scope/scope.go:Scope.Close"]}
{"id": "C69", "title": "Descriptions of types are complete, and introspection ends", "statement": "Describing a Go value always ends, also for types that refer to themselves, and leaves earlier descriptions as they are. A type whose name is new is described by exactly its exported fields, including those of embedded structs and renamed by their tags, and its accessor methods. Every reference leads to a description.", "quantifier": "all sets of Go types, all values, all earlier descriptions", "why_tests_cant": "Tests describe a few fixed types; the walk is recursive over an arbitrary, possibly cyclic graph of types.", "anchors": ["types/introspection.go:TypeMap.AddType", "types/introspection.go:TypeMap.addType", "types/introspection.go:TypeMap.addFields", "types/introspection.go:TypeMap.addMethods"]}
{"id": "C70", "title": "Methods of wrapped structs are called at most once", "statement": "A struct registered with NewLazyStructWrapper shows exactly the listed attributes that are exported fields or accessor methods. The value of a method is computed when first needed, by at most one call even if several goroutines need it at the same time; all get the value of that call, and none waits for ever.", "quantifier": "all structs and attribute lists, all methods, any number of goroutines, all schedules", "why_tests_cant": "The order of the goroutines is up to the Go scheduler, and what the method returns is arbitrary.", "anchors": ["protocols/lazy_wrapper.go:LazyWrapper.Associative", "protocols/lazy_wrapper.go:LazyFunctionWrapper.Reduce", "protocols/lazy_wrapper.go:LazyFunctionWrapper.ReduceWithScope"]}
{"id": "C71", "title": "List sources deliver their list, and materializing keeps the rows", "statement": "Reading a GenericListPlugin or a materialized query to the end gives exactly the rows of the list in order; after cancellation the rows read are a beginning of the list and the goroutine ends even if nobody reads. Materialize returns the rows of its query in order, all of them unless cancelled, closes its scope, and logs one warning if there are more than 10000 rows and none otherwise.", "quantifier": "all lists of rows, all schedules and points of cancellation", "why_tests_cant": "The points at which cancellation and reads happen are up to the scheduler.", "anchors": ["plugins/generic.go:GenericListPlugin.Call", "materializer/in_memory.go:InMemoryMatrializer.Eval", "types/stored_query.go:Materialize"]}
{"id": "C72", "title": "timestamp() gives the time its argument stands for", "statement": "timestamp(epoch=n) is the time n seconds after the start of 1970, and timestamp(winfiletime=w) the last whole second that is not later than w times 100 ns after the start of 1601; epoch wins if both are given. An argument that is not a number is reported and gives NULL.", "quantifier": "all argument values", "why_tests_cant": "All 64 bit integers.", "anchors": ["functions/functions.go:_Timestamp.Call"]}
{"id": "C73", "title": "format() hands its arguments to Sprintf", "statement": "format(format=f, args=a) is what Sprintf makes of f and the elements of a if a is an array, of f and a itself if not, and of f alone if a is not given. f and a are evaluated in this order, once each. Without f nothing is evaluated, a message is left and the value is FALSE.", "quantifier": "all argument expressions and their values, all states", "why_tests_cant": "All argument values.", "anchors": ["functions/format.go:FormatFunction.Call"]}
{"id": "C74", "title": "Nested queries compute the composition of their parts, and end", "statement": "For queries nested in any way (SELECT with WHERE, GROUP BY, ORDER BY, LIMIT, stored queries, flatten, chain, statements, to any depth), all running as goroutines connected by channels: on every schedule the rows read are a beginning of what the clauses give when applied one after the other to the whole list of rows of the query inside, and all of it once the channel is closed. The channel is closed if the reader goes on reading, whatever happens. Without cancellation all goroutines then return, including those that LIMIT cut off; after cancellation they return even if nobody reads.", "quantifier": "all queries of this form, all row functions, all schedules, cancellation at any point", "why_tests_cant": "The number of interleavings of the goroutines is unbounded, and leaked goroutines are not observed.", "anchors": ["vfilter.go:_Select.Eval", "vfilter.go:_From.Eval", "vfilter.go:VQL.Eval", "stored.go:_StoredQuery.Eval", "plugins/chain.go:_ChainPlugin.Call", "plugins/flatten.go:_FlattenPluginImpl.Call", "sort/sort.go:DefaultSorter.Sort", "grouper/grouper.go:DefaultGrouper.Group"]}
{"id": "C75", "title": "The layout of a program text does not matter", "statement": "Take any text that Parse or MultiParse is given and any two ways to write its words one after the other, each followed by a blank or line break and any number of further blanks, line breaks, -- and // comments up to the end of the line and /* */ comments. Both are read as the same statements, or both are not. In particular any text can be written with one word on each line and without comments. GROUP BY and ORDER BY are one word each; the words GROUP and BY on their own are not to be brought next to each other.", "quantifier": "all texts, all ways to space them", "why_tests_cant": "There are infinitely many texts and ways to space them; the lexer picks the first of 28 patterns that matches, and a pattern may match across what used to be a gap.", "anchors": ["vfilter.go:vqlLexer", "vfilter.go:Parse", "vfilter.go:MultiParse"]}
{"id": "C76", "title": "Operators bind in a fixed order", "statement": "An expression in a program text is read and evaluated like the binary tree that one table gives: an operand with its indexes and fields binds tightest, then * and / (the right operand without indexes), then + and -, then one comparison or IN or =~, and NOT of such a comparison, then OR and ||, and AND and && last; * / + - AND OR group to the left. Operands are evaluated from left to right, the right operand of AND and OR only if the left one does not decide. Putting every operand in parentheses does not change the value or the effects, if asking for the truth of a value a second time gives the same answer and changes nothing.", "quantifier": "all expressions of these operators over any operands, all texts with these words, all applications and states", "why_tests_cant": "There are infinitely many expressions; the grammar is spread over seven struct tags and a table in a comment that is not what they do.", "anchors": ["vfilter.go:_CommaExpression", "vfilter.go:_AndExpression.Reduce", "vfilter.go:_OrExpression.Reduce", "vfilter.go:_ConditionOperand.Reduce", "vfilter.go:_AdditionExpression.Reduce", "vfilter.go:_MultiplicationExpression.Reduce", "vfilter.go:_MemberExpression.Reduce"]}
{"id": "C77", "title": "EXPLAIN reports what the query does, and changes nothing", "statement": "A SELECT whose scope is explained first announces itself to the explainer, once, and then reports every row it takes from its source, and for each of them, in order, either the row handed to the reader or that it was rejected. At every moment the rows reported as emitted are those the reader got, except perhaps the last. The query delivers what it delivers without an explainer. A scope is explained exactly if EnableExplain was called on it, or on a scope it was copied from before the copy was made; EXPLAIN of one statement concerns no later statement on the same scope. The logging explainer logs the text of the WHERE clause of a rejected row.", "quantifier": "all sources, all WHERE clauses and transformations, all interleavings of source, query, reader and cancellation at every moment, all histories of copying and enabling scopes", "why_tests_cant": "The reports are made between channel operations; which of them have been made when the reader stops depends on the schedule, and tests run one.", "anchors": ["vfilter.go:_Select.Eval", "vfilter.go:_Select.processSingleRow", "scope/scope.go:Scope.EnableExplain", "scope/scope.go:Scope.Explainer", "scope/scope.go:Scope.Copy", "explain/logging_explainer.go:LoggingExplainer.RejectRow"]}
{"id": "C78", "title": "Every source row is counted and charged for once", "statement": "FROM adds one to RowsScanned and charges one operation for every row of the plugin before the row is passed on, so at every moment the counter exceeds the rows passed on by at most one, and at the end of a query that was not cancelled it has grown by exactly the number of rows the plugin delivered.", "quantifier": "all plugins, all numbers of rows, all earlier values of the counters, all interleavings with the reader and with cancellation at every moment", "why_tests_cant": "A cancellation between counting and sending is a matter of scheduling.", "anchors": ["vfilter.go:_From.Eval", "types/stats.go:Stats.IncRowsScanned"]}
{"id": "C79", "title": "Arguments of functions are evaluated when the function asks", "statement": "When a function is entered none of its arguments has been evaluated and nothing has changed. An argument the function does not ask for is never evaluated. The value it gets is that of the expression in the scope of the caller, and asking again gives the same value without evaluating again, whatever was evaluated in between.", "quantifier": "all functions, argument lists and expressions, all applications and states, everything evaluated between two requests", "why_tests_cant": "An evaluation that should not happen is seen only through its side effects, and an argument that never ends cannot be tested for not being evaluated.", "anchors": ["vfilter.go:_SymbolRef.callFunction", "lazy.go:NewLazyExpr", "lazy.go:LazyExprImpl.Reduce", "lazy.go:LazyExprImpl.ReduceWithScope", "arg_parser/parser.go:anyParser"]}
{"id": "C80", "title": "Closing scopes from several goroutines", "statement": "Several goroutines copy scopes, register destructors and close scopes. A destructor is never started twice, and only if it was accepted. When Close has returned, every destructor accepted before has run, those of copies before those of their parent and on one scope in reverse order of registration, and every copy made before is closed. No call waits for ever.", "quantifier": "any number of goroutines, scopes, copies and destructors, all schedules, destructors that end, take too long or use the scopes themselves", "why_tests_cant": "The order in which goroutines take the locks is not under the control of a test, and the windows in which a call can slip in are a few instructions wide.", "anchors": ["scope/scope.go:Scope.Close", "scope/scope.go:Scope.AddDestructor", "scope/scope.go:Scope.Copy", "scope/scope.go:_destructors.RemoveDestructors", "scope/scope.go:_destructors.SetDestroyed"]}
{"id": "C81", "title": "Aggregate functions called by several goroutines", "statement": "Several goroutines evaluate one query that calls aggregate functions. The results of the calls at a call site in a group are those of the same calls made one after the other, so count() gives 1, 2, 3 and so on, each to one of the calls, and calls at other call sites and in other groups do not change them.", "quantifier": "any number of goroutines, call sites, scopes and groups, all schedules, all aggregate functions of the package", "why_tests_cant": "Whether two goroutines make the first call at the same time is up to the scheduler, and a wrong count is one of many possible outcomes.", "anchors": ["vfilter.go:_SymbolRef.callFunction", "functions/aggregates.go:NewAggregator", "functions/aggregates.go:_CountFunction.Call", "scope/scope.go:Scope.GetAggregatorCtx", "aggregators/aggregators.go:AggregatorCtx.Modify"]}
{"id": "C82", "title": "Go structs as values and rows", "statement": "A Go struct, or a pointer to one, has as members its exported fields in order and its accessor methods. Every member can be read: a field gives its value, a method is called and gives its first result. Fields are also found under the name in their json tag, and fields of embedded structs as in Go. SELECT * over structs gives rows with the members as columns.", "quantifier": "all struct types, embedded to any depth and also in a circle, all values, all names", "why_tests_cant": "Tests use a few fixed structs; clashes between names, tags, methods and embedded fields depend on the types of the application.", "anchors": ["protocols/protocol_associative.go:DefaultAssociative.Associative", "protocols/protocol_associative.go:DefaultAssociative.GetMembers", "protocols/protocol_associative.go:FieldMatchName", "utils/utils.go:IsExported", "utils/utils.go:IsCallable"]}
{"id": "C83", "title": "Keywords in any letter case", "statement": "Writing keywords of a program with other upper and lower case letters does not change the program: it is still accepted or still refused, it has the same statements, and they give the same rows.", "quantifier": "all texts, all ways to rewrite any of the keywords, all three parsing functions, all scopes", "why_tests_cant": "Tests use keywords in a few fixed spellings; that no spelling is taken for an identifier, or makes another rule of the lexer match longer, depends on all the text around it.", "anchors": ["vfilter.go:vqlLexer", "vfilter.go:Parse", "vfilter.go:MultiParse", "vfilter.go:MultiParseWithComments", "vfilter.go:_AndExpression.Reduce", "vfilter.go:_OrExpression.Reduce", "vfilter.go:_Value.Reduce"]}
{"id": "C84", "title": "Wrong arguments of LET functions and queries are reported", "statement": "When a function or query that was defined by LET with parameters is called, every argument that is not a parameter and every parameter that has neither an argument nor a default is reported in the log. Calls that give every parameter a value and nothing else are not reported. The messages come after those of the arguments and before those of the query.", "quantifier": "all definitions, all lists of arguments and defaults, all scopes and host functions", "why_tests_cant": "The log depends on the set of names in the call; tests look at the rows of a few calls and seldom at the log.", "anchors": ["stored.go:_StoredQuery.checkCallingArgs", "stored.go:_StoredQuery.Call", "stored.go:StoredExpression.checkCallingArgs", "stored.go:applyDefaults", "vfilter.go:Plugin.evalSymbolWithArgs", "vfilter.go:_SymbolRef.Reduce"]}
{"id": "C85", "title": "Columns of a lazy row read by several goroutines", "statement": "When any number of goroutines read the columns of one lazy row, every value they are given was returned by the getter of that column. The getter of a column is called at most once, all goroutines are given the same value, and none of them waits for ever. After a value is stored the getter is not called again.", "quantifier": "all columns, all getters and values they may return, any number of goroutines, all schedules of Get and MaterializedLazyRow", "why_tests_cant": "The getter is called twice only if two goroutines look into the cache before either stores; a test hits this by chance only.", "anchors": ["lazy.go:LazyRowImpl.Get", "lazy.go:MaterializedLazyRow", "lazy.go:NewLazyRow", "vfilter.go:_SelectExpression.Transform"]}
{"id": "C86", "title": "Numbers in a query stand for the numbers they spell", "statement": "A number written in a query is read as one token. A whole number is the integer that its digits spell if this fits into 64 bits, and the nearest double otherwise. A hexadecimal number is the integer it spells whatever the case of its letters. A number with a point or an exponent is the double nearest to the decimal fraction, of two that are as near the one with the even mantissa; only what is at least half a step beyond the largest double is no number. What is no number is reported and is NULL.", "quantifier": "all number literals of any length, with all signs, points, exponents and letters", "why_tests_cant": "There are infinitely many decimals between two doubles; that the nearest is taken, and that ties are even, is a statement about all of them.", "anchors": ["vfilter.go:_Value.maybeParseStrNumber", "vfilter.go:_Value.Reduce", "vfilter.go:vqlLexer"]}
{"id": "C87", "title": "Integers and floats mix by value", "statement": "Comparing an integer with a float compares the numbers they stand for: a < b, a = b and a > b hold exactly if they hold of the two numbers. So min(), max() and ORDER BY work on lists in which integers and floats are mixed. The sum, difference, product and quotient of two numbers, at least one of which is a float (for the quotient: of any two), is the double nearest to the exact result, rounded once, of two that are as near the one with the even mantissa.", "quantifier": "all pairs and all lists of integers of at most 2^53 in absolute value and floats", "why_tests_cant": "The exact result lies between doubles for almost all operands; only a proof covers all pairs of 64 bit numbers.", "anchors": ["protocols/protocol_lt.go:intLt", "protocols/protocol_lt.go:intEq", "protocols/protocol_gt.go:intGt", "protocols/protocol_add.go:AddDispatcher.Add", "protocols/protocol_sub.go:SubDispatcher.Sub", "protocols/protocol_mul.go:MulDispatcher.Mul", "protocols/protocol_div.go:DivDispatcher.Div", "functions/aggregates.go:_MinFunction.Call", "sort/sort.go:DefaultSorterCtx.Less"]}
{"id": "C88", "title": "GROUP BY puts rows together exactly if their keys are equal", "statement": "Two rows are in the same group exactly if = says that their GROUP BY keys are equal. So SELECT k, count() AS n FROM .. GROUP BY k has one row for each value of k, in order of first appearance, with the number of the rows that have it.", "quantifier": "all source rows and all keys that are integers, truth values, texts or floats", "why_tests_cant": "The groups are kept by the printed text of the key, so the claim is about the text of every one of 2^64 integers and 2^64 doubles being different; tests group by a handful of small numbers and names.", "anchors": ["vfilter_group.go:GroupbyActor.GetNextRow", "types/string.go:ToString", "types/null.go:Null.String", "grouper/grouper.go:DefaultGrouper.Group"]}
{"id": "C89", "title": "A call calls the function registered under its name", "statement": "A call f(..) in a query gives what the function registered as f in the scope gives for the arguments, each time it is evaluated: for the first row and for later ones, in every scope the parsed query is evaluated in, and also after other functions were registered. NULL is given for a nil result. Calls at different places do not influence each other.", "quantifier": "all histories of registrations and evaluations in any scopes, all functions with or without state of their own, all arguments", "why_tests_cant": "Tests evaluate a parsed query once in a scope that is set up before; what a call remembers shows only in sequences of evaluations.", "anchors": ["vfilter.go:_SymbolRef.callFunction", "vfilter.go:_SymbolRef.getFunction", "vfilter.go:CopyFunction", "types/null.go:IsNil"]}
{"id": "C90", "title": "A lazy argument gives its value to every goroutine", "statement": "Reduce on a lazy argument, called by any number of goroutines, evaluates the expression at most once and returns the value of this evaluation to every caller; no caller waits for another one.", "quantifier": "all interleavings of any number of calls of Reduce, down to the machine words of the cached interface; all values the expression may give, nil included", "why_tests_cant": "The words of an interface are written one after the other in a window of one instruction; a test run shows one interleaving.", "anchors": ["lazy.go:LazyExprImpl.Reduce", "lazy.go:NewLazyExpr"]}
{"id": "C91", "title": "What a row attaches to its scopes lives as long as the row", "statement": "While a row is processed, the scopes made for it accept the destructors that functions in WHERE, in the group key and in the columns attach to them, and none of these has run. When the row has been processed, each of these scopes and all scopes copied from them are closed, and every destructor they accepted has run exactly once. Scopes older than the row are not touched. This holds for SELECT, with and without WHERE, for rows kept or not, and for GROUP BY.", "quantifier": "all histories of scopes, all rows and sequences of rows, all scope operations that expressions do as long as they close only their own scopes", "why_tests_cant": "Whether a destructor is accepted and when it runs depends on which scopes every function in the row has copied and closed before; a test shows one such history.", "anchors": ["vfilter.go:_Select.processSingleRow", "vfilter.go:_SelectExpression.Transform", "vfilter_group.go:GroupbyActor.GetNextRow", "grouper/grouper.go:DefaultGrouper.Group", "scope/scope.go:Scope.AddDestructor", "scope/scope.go:Scope.Close"]}
{"id": "C92", "title": "The order of arguments does not matter", "statement": "The arguments of a call of a LET function or query can be written in any order, and the defaults of the parameters left out can be evaluated in any order: each parameter is bound to the same value.", "quantifier": "all argument lists and all permutations of them, all sets of defaults and all orders of visiting them, all states", "why_tests_cant": "Go visits the map of defaults in a random order; a test that runs once sees one order, and can pass or fail by chance.", "anchors": ["stored.go:applyDefaults", "vfilter.go:_SymbolRef.buildArgsFromParameters", "vfilter.go:VQL.getParameterNames", "stored.go:StoredExpression.ApplyDefaults", "stored.go:_StoredQuery.ApplyDefaults"]}
{"id": "C93", "title": "Calls on scopes do not deadlock", "statement": "Whatever calls on scopes any number of goroutines make, and whatever the application's code does when it is called back (loggers, Info of functions and plugins, listing of members, destructors, methods), every call returns: as long as one has not, some goroutine can go on, and in the end no mutex is held.", "quantifier": "any number of goroutines, all sequences of calls with callbacks of any nesting, all schedules", "why_tests_cant": "A deadlock needs two goroutines to be between two particular instructions at the same time; a test would have to hit this schedule.", "anchors": ["scope/scope.go:Scope.Explainer", "scope/scope.go:Scope.PrintVars", "scope/scope.go:Scope.AddDestructor", "scope/scope.go:Scope.GetAggregatorCtx", "scope/dispatcher.go:protocolDispatcher.Describe", "scope/dispatcher.go:protocolDispatcher.AppendFunctions", "scope/dispatcher.go:protocolDispatcher.AppendPlugins", "scope/dispatcher.go:protocolDispatcher.Info", "scope/dispatcher.go:protocolDispatcher.Log"]}
{"id": "C94", "title": "The registries of functions and plugins are not written while they are used", "statement": "When goroutines register functions and plugins, look them up, describe scopes and create scopes at the same time, no map is written by one goroutine while another one reads or writes it (which ends a Go program).", "quantifier": "any number of goroutines, all sequences of calls with callbacks of any nesting, all schedules, all dispatchers", "why_tests_cant": "Two goroutines have to be in the map at the same moment; the race detector sees only the schedules that happen.", "anchors": ["scope/dispatcher.go:protocolDispatcher.GetFunction", "scope/dispatcher.go:protocolDispatcher.GetPlugin", "scope/dispatcher.go:protocolDispatcher.AppendFunctions", "scope/dispatcher.go:protocolDispatcher.AppendPlugins", "scope/dispatcher.go:protocolDispatcher.Copy", "scope/dispatcher.go:protocolDispatcher.WithNewContext", "scope/dispatcher.go:protocolDispatcher.GetSimilarPlugins"]}
{"id": "C95", "title": "Struct tags declare the arguments of functions and plugins", "statement": "The arguments of a function or plugin are those of the tagged fields of its struct, in order: the name is the one in the tag (or the Go name), the argument is required exactly if the tag says so whatever the documentation says, descriptions show it under the name by which it is accepted, and it is parsed by the parser registered last for the type of the field (or else by the one for its kind), no matter when the function was used first.", "quantifier": "all tags, structs, types and all sequences of registrations and uses", "why_tests_cant": "Documentation texts and names are free text, and what a cache answers depends on everything that happened before.", "anchors": ["arg_parser/parser.go:BuildParser", "arg_parser/parser.go:RegisterParser", "arg_parser/cache.go:GetParser", "types/types.go:TypeMap.AddType"]}
{"id": "C96", "title": "Syntax nodes mean the same for all goroutines", "statement": "When several goroutines evaluate the same parsed query, as the workers of foreach do, every number, constant, name, parameter list and column name means to each of them what its text says, no matter which of them comes to the node first, and none of them has to wait for more than two short sections of its own.", "quantifier": "any number of goroutines and calls, all schedules, all nodes", "why_tests_cant": "What a node remembers depends on which goroutine came first; tests see few schedules.", "anchors": ["vfilter.go:_Value.Reduce", "vfilter.go:_SymbolRef.getFunction", "vfilter.go:_AliasedExpression.GetName", "vfilter.go:Plugin.Eval", "vfilter.go:VQL.getParameters"]}
{"id": "C97", "title": "A lookup sees the rows a scope had at one moment", "statement": "Looking a name up in a scope goes through the rows that the scope had at one moment during the call, each once, from the last added to the first, no matter which rows other goroutines add to this scope, its copies or others and which copies they make in the meantime; no element of a slice is written that a lookup has still to read, and no two scopes write into the same array.", "quantifier": "any number of scopes, rows, lookups and copies, all interleavings element by element, all capacities that append may choose", "why_tests_cant": "Whether append writes into a shared array depends on its capacity, and what a reader sees on the schedule.", "anchors": ["scope/scope.go:Scope.Resolve", "scope/scope.go:Scope._ResolveVars", "scope/scope.go:Scope.AppendVars", "scope/scope.go:Scope.Copy", "scope/scope.go:Scope.CheckForOverflow"]}
{"id": "C98", "title": "Closing a scope ends in bounded time, with its destructors run one after the other", "statement": "Close of a scope without children starts each of its destructors, including those added meanwhile, at most once, one after the other in the reverse order of registration, and returns after at most 60 seconds for each of them, whatever they do. No two of them run at the same time, and none runs any more when Close has returned.", "quantifier": "all numbers of destructors, all durations of each, all sequences of additions", "why_tests_cant": "The limit is a minute for each destructor, and destructors may take any time.", "anchors": ["scope/scope.go:Scope.Close", "scope/scope.go:_destructors.RemoveDestructors"]}
{"id": "C99", "title": "Closed scopes leave nothing behind in their parent", "statement": "However many scopes are made from a scope and closed again (one or more for each row of a query), its list of children contains exactly those that are open, in the order in which they were made, and is at most 10 places longer than the largest number of them open at the same time; closing a scope twice, or one that is no child, changes nothing; the message about too many children is not printed as long as no more than 990 are open.", "quantifier": "all sequences of copies and closes, in any order and by any goroutines", "why_tests_cant": "A leak shows only with very many rows.", "anchors": ["scope/scope.go:Scope.Copy", "scope/scope.go:Scope.Close"]}
{"id": "C100", "title": "A throttler slows down the queries it is set for, until their scope is closed", "statement": "After SetThrottler on a scope, queries on this scope and on all scopes made from it charge this throttler, as long as these scopes are open; others do not. The throttler is closed when the scope it was set on is closed, and not before.", "quantifier": "all histories of scopes being made, copied, closed and given throttlers", "why_tests_cant": "Any tree of scopes, and any moment at which the throttler is set or a scope is closed.", "anchors": ["scope/scope.go:Scope.SetThrottler", "scope/scope.go:Scope.ChargeOp", "scope/scope.go:Scope.Copy", "scope/scope.go:Scope.NewScope"]}
{"id": "C101", "title": "OutputJSON encodes all rows or fails", "statement": "OutputJSON returns the encoding of all rows of the query, in order and each converted to a dictionary, or an error; the throttler of the scope is charged once for each row, so that rows are not received faster than it ticks; the call ends if the query does.", "quantifier": "all queries, encoders, throttlers and schedules of rows, ticks and cancellation", "why_tests_cant": "All schedules; a row that is missing when the query is cancelled at a certain moment.", "anchors": ["api.go:OutputJSON", "scope/scope.go:Scope.ChargeOp", "throttle.go:TimeThrottler.ChargeOp"]}
{"id": "C102", "title": "Statistics count everything exactly once", "statement": "However many goroutines send rows, call plugins and functions and copy scopes at the same time, each is counted exactly once in the statistics of its scope; a snapshot has the five numbers that the counters had at one moment, and says how often protocols were searched.", "quantifier": "all programs of any number of goroutines, and all schedules", "why_tests_cant": "All schedules.", "anchors": ["types/stats.go:Stats.Snapshot", "types/stats.go:Stats.IncRowsScanned", "scope/scope.go:Scope.GetStats"]}
