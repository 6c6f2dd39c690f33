{
 "claims": [
  {
   "property": "C01",
   "status": "partial",
   "theorems": [
    "Vfilter.C01_null_absorbs",
    "Vfilter.C01_scalar_plus_null",
    "Vfilter.C01_array_plus_null",
    "Vfilter.C01_plus_null_registered_refuted",
    "Vfilter.C01_lazy_null_divisor_refuted"
   ],
   "note": "NULL on the left of + - * / and on the right of - * and (already reduced) / proved for all operands and registrations. v + NULL proved when no registered Add implementation claims the pair; with one it is refuted. NULL as a lazy divisor with a registered Div implementation is refuted too."
  },
  {
   "property": "C02",
   "status": "proved",
   "theorems": [
    "Vfilter.C02_int_exact",
    "Vfilter.Vql.C02_evaluates_sum",
    "Vfilter.Vql.C02_evaluates_product"
   ],
   "note": "All pairs of 64 bit integers. Also for whole sums and products of any number of operands in the evaluator (C02_evaluates_sum, C02_evaluates_product)."
  },
  {
   "property": "C03",
   "status": "partial",
   "theorems": [
    "Vfilter.C03_div_partial",
    "Vfilter.C03_div_by_float",
    "Vfilter.C03_refuted",
    "Vfilter.C03_lazy_refuted",
    "Vfilter.Vql.C03_evaluates_partial"
   ],
   "note": "Proved unless the divisor is a float and the dividend is not; in that case the code tests the dividend for zero (C03_div_by_float), so 1/0.0 is not NULL and 0/2.0 is NULL (refuted). A lazy divisor always gives NULL (refuted). The same for a / b in the evaluator (C03_evaluates_partial)."
  },
  {
   "property": "C04",
   "status": "partial",
   "theorems": [
    "Vfilter.C04_string_concat",
    "Vfilter.C04_array_concat",
    "Vfilter.C04_array_append",
    "Vfilter.C04_array_prepend",
    "Vfilter.C04_array_assoc",
    "Vfilter.C04_array_query",
    "Vfilter.C04_query_concat",
    "Vfilter.C04_null_prepend_refuted",
    "Vfilter.Vql.Adding.C04_stored_queries",
    "Vfilter.Vql.C04_evaluates"
   ],
   "note": "String and array laws proved (arrays: when no registered Add implementation claims the pair). NULL + array is NULL instead of prepending (refuted). Strings also in the evaluator (C04_evaluates). Stored queries and arrays in the evaluator (C04_stored_queries): the queries run left to right, each to its end, and the rows are concatenated."
  },
  {
   "property": "C05",
   "status": "partial",
   "theorems": [
    "Vfilter.C05_repeat_partial",
    "Vfilter.C05_panics_iff",
    "Vfilter.C05_repeat_or_panic_partial",
    "Vfilter.C05_refuted"
   ],
   "note": "Exact characterisation of when evaluation panics; otherwise the claimed value. 'Never panics' is refuted (negative counts, wraparound of the uint64 size guard)."
  },
  {
   "property": "C06",
   "status": "proved",
   "theorems": [
    "Vfilter.C06_truth"
   ],
   "note": "All values and registration histories; a stored query is decided by its rows when no registered implementation claims it."
  },
  {
   "property": "C07",
   "status": "partial",
   "theorems": [
    "Vfilter.C07_dict_eq",
    "Vfilter.C07_array_eq",
    "Vfilter.C07_refl",
    "Vfilter.C07_symm_partial",
    "Vfilter.C07_symm_refuted",
    "Vfilter.C07_trans_refuted",
    "Vfilter.C07_refl_nan_refuted"
   ],
   "note": "Dict and array characterisation, reflexivity on NaN free data, symmetry for kind mixes without bool/float and time/number pairs proved for any depth. Symmetry on those pairs, reflexivity of NaN and transitivity across int/float are refuted."
  },
  {
   "property": "C08",
   "status": "partial",
   "theorems": [
    "Vfilter.C08_trichotomy",
    "Vfilter.C08_flip",
    "Vfilter.C08_trans",
    "Vfilter.C08_time_trichotomy",
    "Vfilter.C08_time_numbers",
    "Vfilter.C08_null",
    "Vfilter.C08_bool_refuted",
    "Vfilter.C08_at_most_one_refuted",
    "Vfilter.C08_time_refuted"
   ],
   "note": "Trichotomy, flip and transitivity for numbers and strings, trichotomy for times in 1678-2262, NULL on the left proved. Booleans, 'at most one for any values' and far away times are refuted. Comparisons of a time with numbers (seconds) are proved in both positions."
  },
  {
   "property": "C09",
   "status": "partial",
   "theorems": [
    "Vfilter.Vql.C09_evaluates_partial",
    "Vfilter.Vql.C09_not_evaluates",
    "Vfilter.C09_operators_partial",
    "Vfilter.C09_not_and_boolean",
    "Vfilter.C09_refuted"
   ],
   "note": "Every accepted operator spelling except '<>' (IN in any letter case, upper cased by the parser): result, operand order and single evaluation, NOT. '<>' is accepted by the grammar but always FALSE (refuted). The same for a op b and NOT in the evaluator with arbitrary operands (C09_evaluates_partial, C09_not_evaluates)."
  },
  {
   "property": "C10",
   "status": "partial",
   "theorems": [
    "Vfilter.Vql.C10_and_evaluates",
    "Vfilter.Vql.C10_or_evaluates",
    "Vfilter.C10_and",
    "Vfilter.C10_or",
    "Vfilter.C10_or_value_refuted"
   ],
   "note": "Evaluation order, short circuit, truth value and exact value proved for all chains. 'The value is TRUE/FALSE for OR' is refuted (5 OR 1 is 5). C10_and_evaluates and C10_or_evaluates characterise every run of a chain in the evaluator, on any host and with any operands."
  },
  {
   "property": "C11",
   "status": "proved",
   "theorems": [
    "Vfilter.C11_slice",
    "Vfilter.C11_split",
    "Vfilter.Vql.C11_evaluates"
   ],
   "note": "Sequence length below 2^63. The same for x[a:b] in the evaluator (C11_evaluates)."
  },
  {
   "property": "C12",
   "status": "partial",
   "theorems": [
    "Vfilter.C12_index",
    "Vfilter.C12_query_partial",
    "Vfilter.C12_query_refuted",
    "Vfilter.Vql.C12_evaluates"
   ],
   "note": "Arrays and strings (shorter than 2^63) proved for every index; agreement of stored query indexing proved for 0 <= i < n, refuted for negative and out of range indexes. The same for x[i] in the evaluator (C12_evaluates)."
  },
  {
   "property": "C13",
   "status": "proved",
   "theorems": [
    "Vfilter.C13_columns",
    "Vfilter.C13_dict_columns",
    "Vfilter.Vql.C13_evaluates"
   ],
   "note": "The same for x.f in the evaluator (C13_evaluates)."
  },
  {
   "property": "C14",
   "status": "proved",
   "theorems": [
    "Vfilter.C14_membership"
   ],
   "note": ""
  },
  {
   "property": "C15",
   "status": "proved",
   "theorems": [
    "Vfilter.C15_iterate",
    "Vfilter.C15_rows_are_dicts"
   ],
   "note": ""
  },
  {
   "property": "C16",
   "status": "proved",
   "theorems": [
    "Vfilter.C16_cache_invisible"
   ],
   "note": "Regex engine is a parameter."
  },
  {
   "property": "C17",
   "status": "proved",
   "theorems": [
    "Vfilter.C17_last_registered_wins",
    "Vfilter.C17_last_registered_wins_unary",
    "Vfilter.C17_last_registered_wins_member",
    "Vfilter.C17_copies_independent",
    "Vfilter.C17_copy_same",
    "Vfilter.C17_builtins_not_overridden"
   ],
   "note": "All histories of registrations and copies; one operand, two operand and associative search loops."
  },
  {
   "property": "C18",
   "status": "proved",
   "theorems": [
    "Vfilter.C18_resolve",
    "Vfilter.C18_scope_resolve"
   ],
   "note": "Any stack of variable sets; Scope.Resolve reduces to it below the overflow depth of 1000, above which it answers NULL/absent (second theorem)."
  },
  {
   "property": "C19",
   "status": "proved",
   "theorems": [
    "Vfilter.C19_visible",
    "Vfilter.C19_isolated",
    "Vfilter.C19_copy",
    "Vfilter.C19_snapshot_stable"
   ],
   "note": "Over all histories of new/copy/append/aggregator/destructor/close calls, with Go slices modelled as shared backing arrays and an arbitrary growth policy, so aliasing between copies is covered."
  },
  {
   "property": "C20",
   "status": "partial",
   "theorems": [
    "Vfilter.C20_close_runs_partial",
    "Vfilter.C20_children_first",
    "Vfilter.C20_reverse",
    "Vfilter.C20_close_again_partial",
    "Vfilter.C20_exactly_once",
    "Vfilter.C20_close_again_refuted"
   ],
   "note": "Conservation over whole histories (ran + pending = accepted registrations, with multiplicity), children before parents, and reverse order are proved for all histories. \"Closing again runs nothing\" and \"all run on close\" hold when destructors register further destructors at most 10 rounds deep; the refutation gives an 11-deep chain whose last member is run by a second close. Destructors on scopes copied from an already closed scope are not reached (see C21)."
  },
  {
   "property": "C21",
   "status": "partial",
   "theorems": [
    "Vfilter.C21_closes_descendants_partial",
    "Vfilter.C21_closes_reachable",
    "Vfilter.C21_closed_refuses",
    "Vfilter.C21_closes_descendants_refuted"
   ],
   "note": "Proved for all histories that never copy from a closed scope, and an exact description (scopes reachable through open scopes) for all histories. The unrestricted statement is refuted: Copy on a closed scope succeeds but the closed scope is no longer linked to its parent."
  },
  {
   "property": "C22",
   "status": "partial",
   "theorems": [
    "Vfilter.Vql.C22_refuted",
    "Vfilter.Vql.C22_default_refuted",
    "Vfilter.Vql.C22_default_let",
    "Vfilter.Vql.C22_cutoff_name",
    "Vfilter.Vql.C22_cutoff_let",
    "Vfilter.Vql.C22_cutoff_source",
    "Vfilter.Vql.C22_partial",
    "Vfilter.Vql.C22_builtin_partial"
   ],
   "note": "Refuted as stated by two programs that recurse at constant scope depth: LET Foo = scope().Foo SELECT * FROM Foo (C22_refuted) and LET f(x=f()) = e with f() (C22_default_refuted, for any body e); in Go these exhaust the stack. C22_partial: every program of a fragment finishes (for any stack bound above some n, with the same result), with arbitrary self- and mutually recursive LET expressions and queries, all operators, GROUP BY, ORDER BY, LIMIT, sub-selects in columns and any host functions and plugins that finish on data; C22_builtin_partial instantiates it with the package's own functions and operators. C22_cutoff_*: beyond the limit names and LET calls are NULL and sources deliver no rows. Missing from the fragment: {SELECT} arguments, non-literal defaults, functions handing out the scope."
  },
  {
   "property": "C23",
   "status": "proved",
   "theorems": [
    "Vfilter.C23_lookup",
    "Vfilter.C23_modify",
    "Vfilter.C23_fresh"
   ],
   "note": "All histories of scope calls; nearest context, modification seen exactly by the scopes sharing it, fresh context isolates the subtree."
  },
  {
   "property": "C24",
   "status": "partial",
   "theorems": [
    "Vfilter.Vql.C24_excluded",
    "Vfilter.Vql.C24_checkpoint_partial",
    "Vfilter.Vql.C24_resolve_partial",
    "Vfilter.Vql.C24_quotable",
    "Vfilter.Vql.C24_let_kept",
    "Vfilter.Vql.C24_null_refuted",
    "Vfilter.Vql.C24_integer_refuted",
    "Vfilter.Vql.C24_alias_refuted",
    "Vfilter.Vql.C24_names_refuted",
    "Vfilter.Vql.C24_default_refuted",
    "Vfilter.Vql.C24_error_refuted"
   ],
   "note": "For every scope made of dictionaries, every codec, every order of the items and every target state: marshalling succeeds and the new scope resolves each written, not ignored name to the same value; other names resolve as in the target; no other scope changes. Every LET definition that was parsed (within C49's condition) is covered, with the same name, parameters and body, numbers in printed form. Hypotheses that are needed, each with a refutation: plain values round trip through JSON and are not NULL (integers become doubles), definitions are stored under their own name, names and parameters are readable when written, no value fails to encode. Defaults of parameters are dropped. Variable sets that are not dictionaries (lazy rows, application structs) and scopes as values are not covered."
  },
  {
   "property": "C25",
   "status": "partial",
   "theorems": [
    "Vfilter.C25_stream",
    "Vfilter.C25_completes",
    "Vfilter.Vql.C25_select",
    "Vfilter.Vql.C25_no_where",
    "Vfilter.Vql.C25_filter",
    "Vfilter.Vql.C25_star",
    "Vfilter.Vql.C25_example"
   ],
   "note": "Two levels. (1) The row loop as a state machine over all schedules, for every source and every function from rows to an optional output row. (2) The evaluator: C25_select characterises the run of every SELECT without GROUP BY/ORDER BY/LIMIT as the fold over the source rows, each contributing its row exactly if WHERE is truthy in the state reached (so stateful conditions such as count() are included); C25_filter gives the filter form when the condition is a function of the row, C25_no_where and C25_star the other cases. Partial because the two levels are separate models (evaluation is sequential in the second) and because a source row is assumed to answer member lookups like a dictionary (Answers) in C25_filter and C25_star."
  },
  {
   "property": "C26",
   "status": "partial",
   "theorems": [
    "Vfilter.C26_limit_partial",
    "Vfilter.C26_positive",
    "Vfilter.C26_limit_zero_refuted",
    "Vfilter.C26_completes",
    "Vfilter.Vql.C26_select_limit"
   ],
   "note": "The LIMIT goroutine over all integers and schedules: it delivers the first max(1,n) rows, takes no more from its source and cancels it. For n >= 1 this is the property (C26_positive); LIMIT 0 delivers one row (C26_limit_zero_refuted). The limit is an int64; its int conversion is the identity on 64 bit platforms. C26_select_limit: at evaluator level LIMIT n of a query is the corresponding prefix of the rows of the query without LIMIT."
  },
  {
   "property": "C27",
   "status": "partial",
   "theorems": [
    "Vfilter.Vql.C27_group",
    "Vfilter.Vql.C27_columns",
    "Vfilter.Vql.C27_nodup",
    "Vfilter.Vql.C27_distinct",
    "Vfilter.Vql.C27_star",
    "Vfilter.Vql.C27_late_star"
   ],
   "note": "All column lists and all source rows that answer like a dictionary (dictionaries and NULL do, Answers): C27_columns gives the exact column names and order of every emitted row, C27_nodup that none is repeated, C27_star, C27_distinct and C27_late_star the special cases of the property. A repeated name stands at its last place. C27_group: the same for GROUP BY queries. Structs: C82_answers_partial, for structs whose members mean one thing each."
  },
  {
   "property": "C28",
   "status": "partial",
   "theorems": [
    "Vfilter.Vql.C28_where_alias",
    "Vfilter.Vql.C28_where_other",
    "Vfilter.Vql.C28_column",
    "Vfilter.Vql.C28_scopes"
   ],
   "note": "C28_where_alias, C28_where_other and C28_column give the exact lookup of every name in WHERE and in column expressions, C28_scopes shows that these are the scopes used, at any time while the row is processed. For enclosing scopes whose variables are dictionaries, source rows that are dictionaries, and names other than the built-in dictionary methods (@Items, ...). NULL or array source rows shadow every enclosing name (see DESIGN.md)."
  },
  {
   "property": "C29",
   "status": "partial",
   "theorems": [
    "Vfilter.Vql.C29_row_partial",
    "Vfilter.Vql.C29_select_partial",
    "Vfilter.Vql.C29_at_most_once_partial",
    "Vfilter.Vql.C29_group_partial",
    "Vfilter.Vql.C29_builtin_partial",
    "Vfilter.Vql.C29_cached",
    "Vfilter.Vql.C29_duplicate_refuted",
    "Vfilter.Vql.Pkg.C29_package_partial",
    "Vfilter.Vql.Pkg.C29_range_partial"
   ],
   "note": "C29_select_partial: for every query SELECT .. FROM .. WHERE .., every source row has a lazy row with a scope of its own; when the query has finished, a column asked for by WHERE was evaluated exactly once, another one once for each column of that name if the row was accepted and not at all if it was rejected (Computed). C29_at_most_once_partial: so at most once if the column names are distinct; C29_duplicate_refuted: not otherwise, the last of two columns of the same name is evaluated twice. C29_group_partial is the step for GROUP BY, C29_cached: reading a column again evaluates nothing, C29_builtin_partial: the statement for the built-in functions from the initial state without further assumptions. C29_package_partial: for all functions, plugins and operators of the package together (foreach, chain, flatten, if, get, ...) from a new scope, where min, max and enumerate are called on plain data (integers, strings, arrays and dictionaries of such) and whatever the application adds stays within its arguments; C29_range_partial: SELECT .. FROM range(..) WHERE .. with distinct names without any assumption on the rows. ORDER BY sorts finished rows (C32). Partial: the host's functions use only the values they are given and its aggregate functions do not store their arguments (Host.Within true; proved for the built-in ones without enumerate()), source rows are dictionaries or NULL."
  },
  {
   "property": "C30",
   "status": "partial",
   "theorems": [
    "Vfilter.C30_stream",
    "Vfilter.C30_completes",
    "Vfilter.Vql.C30_groups",
    "Vfilter.Vql.C30_one_group",
    "Vfilter.Vql.C30_count",
    "Vfilter.Vql.C30_last",
    "Vfilter.Vql.C30_contexts",
    "Vfilter.Vql.C30_where_aggregate_refuted",
    "Vfilter.Vql.C30_aggregates_partial",
    "Vfilter.Vql.C30_histogram_partial",
    "Vfilter.Vql.C30_isolated_partial",
    "Vfilter.Vql.Pkg.C30_package_partial"
   ],
   "note": "C30_groups gives the exact result of every GROUP BY query without ORDER BY/LIMIT: one row per key in order of first appearance, the row computed for the last entry of the group, each row passing WHERE entering exactly one group (C30_one_group, C30_count, C30_last). C30_contexts: two rows share an aggregator context exactly if they have the same key, and no context existed before. C30_isolated_partial: while a row is processed, the contexts of the groups it does not belong to do not change, so the aggregates of a group range over its rows only (for hosts with Host.Within true, i.e. functions that use only the values they are given and aggregates that do not store their arguments; source rows that are dictionaries or NULL). C30_package_partial is that for all functions, plugins and operators of the package from a new scope (min, max and enumerate called on plain data). Aggregates referred to in WHERE through a column alias count in the context of the enclosing scope: C30_where_aggregate_refuted. C30_stream, C30_completes: the grouper goroutine over all schedules. C30_aggregates_partial: end to end, for any number of columns that are functions of the source row or aggregate calls, and any condition and key that are functions of the source row, the group row has the aggregates of exactly the rows of the group and the last row's values otherwise (source rows are dictionaries; nodes and aliases distinct). C30_histogram_partial: SELECT k, count() AS n, sum(item=x) AS t FROM .. GROUP BY k with the package's functions gives the number and the sum (modulo 2^64) of the rows of each group."
  },
  {
   "property": "C31",
   "status": "partial",
   "theorems": [
    "Vfilter.C31_independent",
    "Vfilter.C31_count",
    "Vfilter.C31_sum",
    "Vfilter.C31_sum_error",
    "Vfilter.C31_enumerate",
    "Vfilter.C31_min_partial",
    "Vfilter.C31_max_partial",
    "Vfilter.C31_min_mixed",
    "Vfilter.C31_min_refuted",
    "Vfilter.C31_max_null_refuted",
    "Vfilter.C31_max_mixed_refuted",
    "Vfilter.Vql.C31_count_evaluates",
    "Vfilter.Vql.C31_sum_evaluates",
    "Vfilter.Vql.C31_min_evaluates",
    "Vfilter.Vql.C31_max_evaluates",
    "Vfilter.Vql.C31_enumerate_evaluates"
   ],
   "note": "Histories of calls of any length, with any number of instances interleaved on one context. count, sum (modulo 2^64) and enumerate proved in full. min/max proved as stated for items that are all integers and strings, all non NaN floats, or all times; min over mixed integers and floats is still minimal. Over other mixes the statement is refuted ([1.5,\"a\",1]; NULL resets max; int/float above 2^53). In the evaluator each call is one call of the aggregate of its call site, the item evaluated once: C31_count_evaluates, C31_sum_evaluates, C31_min_evaluates, C31_max_evaluates, C31_enumerate_evaluates. Mixed integers and floats within 2^53: C87_min, C87_max."
  },
  {
   "property": "C32",
   "status": "partial",
   "theorems": [
    "Vfilter.C32_permutation",
    "Vfilter.C32_asc_partial",
    "Vfilter.C32_desc_partial",
    "Vfilter.C32_null_lowest",
    "Vfilter.C32_missing_refuted",
    "Vfilter.C32_float_null_refuted",
    "Vfilter.C32_desc_contract_refuted",
    "Vfilter.C32_stream",
    "Vfilter.C32_completes",
    "Vfilter.Vql.C32_evaluates_partial",
    "Vfilter.Vql.C32_limit"
   ],
   "note": "Goroutine over all schedules (C32_stream, C32_completes) and the comparison. Permutation for every row list; sorted ascending when every row has the key and keys are integers, strings and NULL, or floats, or times, for every sort function meeting the contract of sort.Sort; descending for the insertion sort Go uses up to 12 rows, because the DESC comparison is reflexive and breaks the contract (C32_desc_contract_refuted). Rows lacking the key are not treated as NULL and NULL is not lowest among floats (refuted). In the evaluator (C32_evaluates_partial, C32_limit): for a host whose sorter meets the contract, the rows of SELECT \u2026 ORDER BY k are a permutation of the rows of the same query without ORDER BY, in the order of the sorter; LIMIT then takes a prefix. Mixed integers and floats within 2^53: C87_order."
  },
  {
   "property": "C33",
   "status": "partial",
   "theorems": [
    "Vfilter.Vql.C33_by_value",
    "Vfilter.Vql.C33_definition",
    "Vfilter.Vql.C33_by_name",
    "Vfilter.Vql.C33_redefinition"
   ],
   "note": "C33_by_value: after LET x <= e and any later statements not defining x, and after any evaluation whatsoever, x is found with the value stored, without evaluating anything. C33_definition, C33_by_name, C33_redefinition: LET x = e evaluates nothing, a reference evaluates e in a copy of the scope of the reference, so redefinitions are seen. For names other than dictionary methods and scopes below the depth limit; by name for references without arguments."
  },
  {
   "property": "C34",
   "status": "partial",
   "theorems": [
    "Vfilter.Vql.C34_defaults",
    "Vfilter.Vql.C34_call",
    "Vfilter.Vql.C34_shadow",
    "Vfilter.Vql.C34_free_name",
    "Vfilter.Vql.C34_caller",
    "Vfilter.Vql.C34_stored",
    "Vfilter.Vql.C34_query",
    "Vfilter.Vql.C34_call_site",
    "Vfilter.Vql.C34_call_site_rows",
    "Vfilter.Vql.C34_quoted_default_refuted"
   ],
   "note": "C34_call (LET f(..) = expression), C34_query (LET f(..) = SELECT, called in FROM) and C34_call_site with C34_call_site_rows (LET f(..) = SELECT, called inside an expression and read later from anywhere): arguments and missing defaults are evaluated in the caller's scope, the body runs over the caller's variables with the arguments as innermost set; C34_defaults, C34_shadow, C34_free_name, C34_stored, C34_caller. A parameter with neither argument nor default is not NULL but the caller's variable of that name. Partial because the statement fails for one kind of definition, C34_quoted_default_refuted: a default { SELECT } of a parameter written in back quotes is bound under the quoted name (stored.go:201)."
  },
  {
   "property": "C35",
   "status": "partial",
   "theorems": [
    "Vfilter.Vql.C35_function",
    "Vfilter.Vql.C35_plugin_partial",
    "Vfilter.Vql.C35_plugin_refuted"
   ],
   "note": "C35_function: the function evaluates the condition once and then only the chosen branch (equivalence with a right hand side that does not mention the other branch), missing branch NULL. The property is false for the plugin with expression arguments (C35_plugin_refuted: plugin arguments are evaluated before the call); C35_plugin_partial proves it for { SELECT } branches."
  },
  {
   "property": "C36",
   "status": "proved",
   "theorems": [
    "Vfilter.C36_chain",
    "Vfilter.C36_completes",
    "Vfilter.Vql.C36_evaluates"
   ],
   "note": "The chain goroutine over all schedules and any number of queries given as row streams: prefix at any time, the concatenation at the end, and it always ends if read. In the evaluator with the package's plugins: C36_evaluates."
  },
  {
   "property": "C37",
   "status": "partial",
   "theorems": [
    "Vfilter.C37_stream",
    "Vfilter.C37_completes",
    "Vfilter.Vql.C37_evaluates_partial",
    "Vfilter.C37_cartesian_partial",
    "Vfilter.C37_combination_iff",
    "Vfilter.C37_count",
    "Vfilter.C37_choices_count",
    "Vfilter.C37_null_elements_refuted",
    "Vfilter.C37_value_key_refuted"
   ],
   "note": "flatten over all rows of any width whose cells are plain: arrays without NULL elements or dicts with a _value key, dicts without _value key, no stored queries, no user defined iterators. C37_combination_iff and C37_count characterise the expansion. Refuted outside: NULL elements are dropped, a dict with a _value key is replaced. In the evaluator: C37_evaluates_partial. C37_stream, C37_completes: the goroutine over all schedules."
  },
  {
   "property": "C38",
   "status": "proved",
   "theorems": [
    "Vfilter.Vql.C38_evaluates",
    "Vfilter.Vql.C38_values",
    "Vfilter.Vql.C38_no_query",
    "Vfilter.Vql.C38_column",
    "Vfilter.C38_union",
    "Vfilter.C38_one_worker",
    "Vfilter.C38_no_query",
    "Vfilter.C38_completes",
    "Vfilter.C38_workers",
    "Vfilter.C38_negative_workers_refuted"
   ],
   "note": "foreach with its worker pool over all row lists, queries (functions from rows to row lists), worker counts and schedules. Completion without deadlock is proved for at least one worker; a negative workers argument starts none and blocks for ever (C38_negative_workers_refuted), which the conditional statement allows. In the evaluator (one worker): C38_evaluates for { SELECT } rows, C38_values for rows from an expression, C38_column, C38_no_query."
  },
  {
   "property": "C39",
   "status": "partial",
   "theorems": [
    "Vfilter.C39_select_ends",
    "Vfilter.C39_select_rows",
    "Vfilter.C39_select_prefix_refuted",
    "Vfilter.C39_limit_ends",
    "Vfilter.C39_limit_rows",
    "Vfilter.C39_orderby_ends",
    "Vfilter.C39_orderby_leak_refuted",
    "Vfilter.C39_orderby_prefix_refuted",
    "Vfilter.C39_chain_ends",
    "Vfilter.C39_chain_rows",
    "Vfilter.C39_chain_prefix_refuted",
    "Vfilter.C39_response_refuted",
    "Vfilter.C39_group_ends",
    "Vfilter.C39_group_rows",
    "Vfilter.C39_group_prefix_refuted",
    "Vfilter.C39_statement_rows",
    "Vfilter.C39_statement_ends",
    "Vfilter.C39_statement_completes",
    "Vfilter.C39_flatten_rows",
    "Vfilter.C39_flatten_ends",
    "Vfilter.C39_range_ends",
    "Vfilter.C39_foreach_rows",
    "Vfilter.C39_foreach_deadlock_refuted",
    "Vfilter.C39_foreach_ends_partial"
   ],
   "note": "SELECT, GROUP BY, LIMIT, ORDER BY, chain, flatten, range, foreach, the goroutine of a statement and the response channel as state machines; inputs are assumed to keep delivering or to end (a statement does not need even that, C39_statement_ends). Proved: the output closes for SELECT, GROUP BY, LIMIT, ORDER BY, chain, flatten, range (below 2^63) and a statement on every schedule even if nobody reads; delivered rows are a prefix for a statement and flatten. Refuted: ORDER BY leaves a blocked goroutine, foreach can deadlock so its output never closes, the response channel blocks if not read, delivered rows of SELECT and chain are a subsequence but not always a prefix, ORDER BY may deliver a sorted part and GROUP BY the groups of a part of the rows (C39_group_prefix_refuted). Not modelled: user plugins."
  },
  {
   "property": "C40",
   "status": "partial",
   "theorems": [
    "Vfilter.C40_stream_partial",
    "Vfilter.C40_completes_partial",
    "Vfilter.Vql.C40_evaluates_partial",
    "Vfilter.C40_range_partial",
    "Vfilter.C40_range_refuted"
   ],
   "note": "range over all 64 bit start, end and non negative step as long as end + step does not pass 2^63; beyond that the counter wraps around and range does not stop (C40_range_refuted). In the evaluator: C40_evaluates_partial. C40_stream_partial, C40_completes_partial: the goroutine over all schedules."
  },
  {
   "property": "C41",
   "status": "partial",
   "theorems": [
    "Vfilter.Vql.C41_unwrap",
    "Vfilter.Vql.C41_column"
   ],
   "note": "C41_column: the value of every { SELECT } column for all queries and row shapes, for column names other than the dictionary methods (@Items, ...), which the code looks up as methods. The grammar allows { SELECT } besides columns only as call argument, where it stays a query. Nil slices are empty arrays in the model; in the code a subselect without rows reads as NULL from the emitted row (DESIGN finding ag)."
  },
  {
   "property": "C42",
   "status": "proved",
   "theorems": [
    "Vfilter.Vql.C42_unknown",
    "Vfilter.Vql.C42_array",
    "Vfilter.Vql.C42_query",
    "Vfilter.Vql.C42_materialized",
    "Vfilter.Vql.C42_expression",
    "Vfilter.Vql.C42_single",
    "Vfilter.Vql.C42_variable_array",
    "Vfilter.Vql.C42_variable_single",
    "Vfilter.Vql.C42_variable_unknown"
   ],
   "note": "For all symbol paths: C42_array, C42_query, C42_materialized, C42_expression, C42_single, C42_unknown by the value the path leads to; C42_variable_* for variables of scopes made of dictionaries. An array source gives its elements even when they are not rows."
  },
  {
   "property": "C43",
   "status": "proved",
   "theorems": [
    "Vfilter.C43_batches",
    "Vfilter.C43_completes",
    "Vfilter.C43_failing_encoder"
   ],
   "note": "GetResponseChannel over all row streams, batch sizes >= 1, timer and cancellation schedules, plus completion; C43_failing_encoder covers encoders that fail. The conversion of a row to a dict and the encoder's bytes are not part of the model."
  },
  {
   "property": "C44",
   "status": "partial",
   "theorems": [
    "Vfilter.Fmt.C44_multi_parse",
    "Vfilter.Fmt.C44_multi_parse_comments_partial",
    "Vfilter.Fmt.C44_list_comments_refuted",
    "Vfilter.Fmt.C44_comma_comment_refuted",
    "Vfilter.Fmt.C44_unclosed_refuted",
    "Vfilter.C44_with_comments_partial",
    "Vfilter.C44_order",
    "Vfilter.C44_every_sequence",
    "Vfilter.C44_no_statement",
    "Vfilter.C44_trailing_refuted"
   ],
   "note": "Two levels. (1) For any sequence of statements and comments: order and exactly the preceding comments. (2) For texts: texts that parse alone, put on lines of their own with comments between them, are given back by MultiParse (C44_multi_parse; comments inside the statements allowed) and by MultiParseWithComments (C44_multi_parse_comments_partial; comments between the statements only) - lexer and grammar included. Conditions, each shown to be needed by a refutation: comments after the last statement are lost (C44_trailing_refuted), two comments behind a statement ending with a list are an error (C44_list_comments_refuted), a comment behind a final comma is lost (C44_comma_comment_refuted), quotes of a later statement can close a long string (C44_unclosed_refuted). Missing: comments inside statements for MultiParseWithComments."
  },
  {
   "property": "C45",
   "status": "partial",
   "theorems": [
    "Vfilter.Vql.C45_evaluates",
    "Vfilter.Vql.C45_evaluates_total",
    "Vfilter.Vql.C45_constants",
    "Vfilter.C45_total",
    "Vfilter.C45_panics",
    "Vfilter.C45_never_fails_refuted",
    "Vfilter.C45_double",
    "Vfilter.C45_single",
    "Vfilter.C45_triple",
    "Vfilter.C45_triple_only",
    "Vfilter.C45_decodes",
    "Vfilter.C45_hex",
    "Vfilter.C45_malformed_hex_refuted",
    "Vfilter.C45_truncated_hex_refuted"
   ],
   "note": "Unquote over all byte strings together with the String and MultilineString token rules. Round trip for each quoting style, decoding of every well formed body, exact set of panicking inputs (none is a token). Refuted parts: malformed hex after an earlier escape is not kept as written, truncated hex drops text, Unquote panics on six texts that the lexer never produces. A literal evaluates to the decoded text and changes nothing (C45_evaluates, C45_evaluates_total, C45_constants)."
  },
  {
   "property": "C46",
   "status": "partial",
   "theorems": [
    "Vfilter.C46_split_partial",
    "Vfilter.C46_invalid_utf8_refuted"
   ],
   "note": "SplitIdent over UTF-8 text, with a model of Go rune decoding. Names that are not UTF-8 come back changed (C46_invalid_utf8_refuted)."
  },
  {
   "property": "C47",
   "status": "partial",
   "theorems": [
    "Vfilter.C47_line_column",
    "Vfilter.C47_offset_partial",
    "Vfilter.C47_offset_counts_characters",
    "Vfilter.C47_offset_refuted",
    "Vfilter.C47_tokens_in_order"
   ],
   "note": "findEndPos for all texts and Tokenize for any rule matching function. Lines, columns and order hold; the end offset counts characters, so it is wrong for multi byte characters (C47_offset_refuted), and is proved for ASCII texts."
  },
  {
   "property": "C48",
   "status": "proved",
   "theorems": [
    "Vfilter.C48_no_crash"
   ],
   "note": "reportError for every text and every offset 0..len."
  },
  {
   "property": "C49",
   "status": "partial",
   "theorems": [
    "Vfilter.Fmt.C49_same_rows_partial",
    "Vfilter.Fmt.C49_package_partial",
    "Vfilter.Fmt.C49_layout_partial",
    "Vfilter.Fmt.C49_layout_program_partial",
    "Vfilter.Fmt.C49_reformat_partial",
    "Vfilter.Fmt.C49_reformat_string_refuted",
    "Vfilter.Fmt.C49_reformat_comment_refuted",
    "Vfilter.Fmt.C49_reformat_comment_lost_refuted",
    "Vfilter.Fmt.C49_reformat_rows_partial",
    "Vfilter.Fmt.C49_format_parse_partial",
    "Vfilter.Fmt.C49_parse_format_parse_partial",
    "Vfilter.Fmt.C49_number",
    "Vfilter.Fmt.C49_limit",
    "Vfilter.Fmt.C49_double",
    "Vfilter.Fmt.C49_empty_index_refuted",
    "Vfilter.Fmt.C49_let_parameter_refuted",
    "Vfilter.Fmt.C49_star_alias_refuted",
    "Vfilter.Fmt.C49_let_call_refuted",
    "Vfilter.Fmt.C49_let_default_refuted",
    "Vfilter.Fmt.C49_number_refuted"
   ],
   "note": "For every text that parses (parse_format_parse): formatting with FormatToString and parsing again gives the same statement with numbers in printed form, which have the same values (proved for all integers and doubles), and the text is stable. Left out by kStmt, and each shown to be lost by a refutation: `x[]`, `* AS x`, `LET f() =`, LET parameters in backticks or given twice, numbers that are too large. Layouts: the same holds for every layout the visitor can produce, for all options, with and without line breaking and however abTest chooses (C49_layout_partial), for texts of several statements (C49_layout_program_partial), and for ReFormatVQL with its trimmed lines, which is idempotent and keeps the rows (C49_reformat_partial, C49_reformat_rows_partial; lines inside strings must not end with a blank, C49_reformat_string_refuted). Comments are not covered here; see C50. Whole programs: each statement formatted, parsed again and evaluated gives the same rows and finishes on the same inputs (C49_same_rows_partial; C49_package_partial for the functions and plugins of the package), for rows of plain data."
  },
  {
   "property": "C50",
   "status": "proved",
   "theorems": [
    "Vfilter.Fmt.C50_layout",
    "Vfilter.Fmt.C50_parts",
    "Vfilter.Fmt.C50_appends",
    "Vfilter.Fmt.C50_text"
   ],
   "note": "The fragments a visitor emits, taken without the blanks around them, are the same for every layout (any comparison of trial layouts, options, indentation, line breaking); so two texts differ in blanks only. What a reader makes of those blanks is another matter: behind a line comment a blank instead of a line break changes what is read (see DESIGN.md)."
  },
  {
   "property": "C51",
   "status": "partial",
   "theorems": [
    "Vfilter.Fmt.C51_columns",
    "Vfilter.Fmt.C51_statement",
    "Vfilter.Fmt.C51_calls_partial",
    "Vfilter.Fmt.C51_complete",
    "Vfilter.Fmt.C51_nested_refuted",
    "Vfilter.Fmt.C51_where_refuted"
   ],
   "note": "Columns are all reported in order with their names (C51_columns). Calls are reported exactly for those that are not nested in arguments of other calls and are in column expressions (C51_calls_partial, C51_complete); calls in arguments, in WHERE, GROUP BY and in the arguments of the source are missing, with witnesses (C51_nested_refuted, C51_where_refuted). C51_statement: the outline of a statement."
  },
  {
   "property": "C52",
   "status": "partial",
   "theorems": [
    "Vfilter.C52_iff",
    "Vfilter.C52_result",
    "Vfilter.C52_independent",
    "Vfilter.C52_duplicate_refuted",
    "Vfilter.C52_accepts",
    "Vfilter.C52_values",
    "Vfilter.C52_builtin",
    "Vfilter.C52_float32_panics",
    "Vfilter.Vql.C52_missing_evaluates",
    "Vfilter.Vql.C52_unexpected_evaluates",
    "Vfilter.Vql.C52_report_refuted"
   ],
   "note": "Parser.Parse for any list of field declarations with any field parsers and any argument dict: success iff, result, independence. The iff needs distinct declared names (C52_duplicate_refuted). Built in field kinds are modelled separately (C52_builtin); float32 fields panic (C52_float32_panics). In the evaluator: C52_missing_evaluates (len, split, encode, sum, min, max, format without the required first argument, any other arguments), C52_unexpected_evaluates (for len). Calls report under other names and format gives FALSE: C52_report_refuted."
  },
  {
   "property": "C53",
   "status": "partial",
   "theorems": [
    "Vfilter.C53_freeform",
    "Vfilter.C53_expand_partial",
    "Vfilter.C53_no_expansion",
    "Vfilter.C53_replaces",
    "Vfilter.C53_merge_refuted",
    "Vfilter.Vql.C53_evaluates"
   ],
   "note": "Free form result proved for all dicts. Expansion equals passing the entries when ** is the only argument; with explicit arguments beside it they are dropped, not merged (C53_merge_refuted). In the evaluator, for every function of the package but dict and scope: C53_evaluates."
  },
  {
   "property": "C54",
   "status": "partial",
   "theorems": [
    "Vfilter.C54_strings_partial",
    "Vfilter.C54_scalar",
    "Vfilter.C54_anys",
    "Vfilter.C54_all_elements",
    "Vfilter.C54_strings_refuted",
    "Vfilter.C54_query_as_string_refuted"
   ],
   "note": "Any list and any scalar, for []string and []Any targets. String lists keep one string per element unless an element is a dict with one member, which is counted twice (C54_strings_refuted)."
  },
  {
   "property": "C55",
   "status": "partial",
   "theorems": [
    "Vfilter.Vql.C55_first_partial",
    "Vfilter.Vql.C55_later",
    "Vfilter.Vql.C55_remembered",
    "Vfilter.Vql.C55_refuted"
   ],
   "note": "Refuted: -x is negated only the first time a syntax node is evaluated (C55_first_partial, C55_later, C55_refuted: SELECT -a over three rows gives -1, 2, 3). C55_remembered states what a node remembers."
  },
  {
   "property": "C56",
   "status": "partial",
   "theorems": [
    "Vfilter.Vql.C56_refuted",
    "Vfilter.Vql.C56_minus_refuted",
    "Vfilter.Vql.C56_determined_partial",
    "Vfilter.Vql.C56_repeatable_partial",
    "Vfilter.Vql.C56_twice_partial",
    "Vfilter.Vql.C56_builtin_partial"
   ],
   "note": "Refuted as stated: evaluating the same parsed query twice on the same scope continues count() (C56_refuted), and a query with -x changes its meaning (C56_minus_refuted). Proved for all other queries (no aggregate function, no name with a leading minus sign), for every host that does not look at addresses: the rows depend only on the variables and the depth of the scope (C56_determined_partial), and after any history of such queries the same rows are produced (C56_repeatable_partial, C56_twice_partial). Rows are compared when they are plain data; rows with stored queries or lazy values correspond."
  },
  {
   "property": "C57",
   "status": "partial",
   "theorems": [
    "Vfilter.C57_apply",
    "Vfilter.C57_arity",
    "Vfilter.C57_repeated_refuted",
    "Vfilter.C57_quoted_refuted"
   ],
   "note": "Any body (a function of heap and scope), any reachable scope heap below the overflow depth, any parameters without repetition: parameter i is value i, other names and the caller are as before; other arities give NULL. A repeated parameter takes the last value and a backquoted parameter is bound under its quoted spelling, so the body does not see it (refuted)."
  },
  {
   "property": "C58",
   "status": "partial",
   "theorems": [
    "Vfilter.C58_rate",
    "Vfilter.C58_closed_forever",
    "Vfilter.C58_sequential_partial",
    "Vfilter.C58_concurrent_close_refuted"
   ],
   "note": "ChargeOp, ticks and Close over all interleavings. Sequential closes are safe, closed throttlers never block, admitted operations are bounded by ticks. Two concurrent Close calls can panic (C58_concurrent_close_refuted)."
  },
  {
   "property": "C59",
   "status": "proved",
   "theorems": [
    "Vfilter.C59_readers",
    "Vfilter.C59_finishes",
    "Vfilter.C59_materialize",
    "Vfilter.C59_index"
   ],
   "note": "Any number of readers in any interleaving, with cancellation; index, slice, column and len against the row list (fewer than 2^63 rows, no host override for the operand pair). len is taken on the value the argument parser produces (the materialized row list)."
  },
  {
   "property": "C60",
   "status": "partial",
   "theorems": [
    "Vfilter.C60_plain_partial",
    "Vfilter.C60_plain_refuted",
    "Vfilter.C60_keeps",
    "Vfilter.C60_depth",
    "Vfilter.C60_limit",
    "Vfilter.C60_lazy_loop",
    "Vfilter.C60_columns",
    "Vfilter.C60_sorted"
   ],
   "note": "normalize_value as a total function over all nestings; depth limit, column order and values; maps become dicts in ascending order of keys (C60_sorted). \"No lazy values\" holds unless a lazy value is inside a dict or in a query row (C60_plain_refuted); a lazy value reducing to itself forever is cut by the depth limit (C60_lazy_loop)."
  },
  {
   "property": "C61",
   "status": "partial",
   "theorems": [
    "Vfilter.Vql.C61_len_evaluates",
    "Vfilter.Vql.C61_encode_evaluates",
    "Vfilter.Vql.C61_get_evaluates",
    "Vfilter.Vql.C61_dict_evaluates",
    "Vfilter.C61_len",
    "Vfilter.C61_get_partial",
    "Vfilter.C61_get_missing",
    "Vfilter.C61_get_steps",
    "Vfilter.C61_hex_length",
    "Vfilter.C61_hex_injective",
    "Vfilter.C61_encode",
    "Vfilter.C61_dict",
    "Vfilter.C61_get_refuted"
   ],
   "note": "len, hex and dict proved for all inputs. get follows dotted paths through nested dicts for keys that do not read as integers and are not dict method names; keys that read as integers cannot be reached (C61_get_refuted). get has no default argument: the result is NULL when a step is missing. dict() is stated on the arguments as RowToDict sees them (names that are not dict methods). In the evaluator: C61_dict_evaluates (values that are not queries or arrays nested more than 9 deep), C61_len_evaluates, C61_get_evaluates, C61_encode_evaluates."
  },
  {
   "property": "C62",
   "status": "proved",
   "theorems": [
    "Vfilter.C62_mixed_numbers",
    "Vfilter.Vql.C62_evaluates"
   ],
   "note": "All numbers; commutativity of float multiplication is part of LawfulFloat and proved for the concrete binary64 model. The same in the evaluator (C62_evaluates)."
  },
  {
   "property": "C63",
   "status": "partial",
   "theorems": [
    "Vfilter.C63_same_name_partial",
    "Vfilter.C63_bare_name",
    "Vfilter.C63_backslash_refuted"
   ],
   "note": "Unquote_ident and SplitIdent agree for every quoted name without a backslash and every bare name; they disagree with a backslash (C63_backslash_refuted)."
  },
  {
   "property": "C64",
   "status": "proved",
   "theorems": [
    "Vfilter.Vql.C64_evaluates",
    "Vfilter.Vql.C64_no_separator",
    "Vfilter.Vql.C64_regex_evaluates",
    "Vfilter.C64_split",
    "Vfilter.C64_unique",
    "Vfilter.C64_join",
    "Vfilter.C64_parts"
   ],
   "note": "C64_split: the result is the only (C64_unique) list of pieces between the leftmost non-overlapping occurrences of the separator; C64_join: joining gives the text back; C64_parts: at least one piece, none contains the separator. strings.Split is modelled, see splitBy; reg-exp separators are a parameter of the model. In the evaluator: C64_evaluates; without a separator NULL and a message (C64_no_separator). Regular expressions as separators: C64_regex_evaluates, relative to regexp.Split."
  },
  {
   "property": "C65",
   "status": "partial",
   "theorems": [
    "Vfilter.Disp.C65_functions",
    "Vfilter.Disp.C65_plugins",
    "Vfilter.Disp.C65_protocols",
    "Vfilter.Disp.C65_context",
    "Vfilter.Disp.C65_settings",
    "Vfilter.Disp.C65_explainer",
    "Vfilter.Disp.C65_new_scope",
    "Vfilter.Disp.C65_isolated_in",
    "Vfilter.Disp.C65_isolated_out",
    "Vfilter.Disp.C65_copy_shares_functions",
    "Vfilter.Disp.C65_copy_shares",
    "Vfilter.Disp.C65_clear_context",
    "Vfilter.Disp.C65_clear_context_refuted",
    "Vfilter.Disp.C65_all_protocols_refuted",
    "Vfilter.Disp.C65_first_protocol"
   ],
   "note": "For all histories, what a scope shows (functions, plugins, context, protocol implementations, materializer/sorter/grouper, explainer) is stated as the newest write among the operations on the registry it shares (C65_functions .. C65_explainer), with NewScope isolated in both directions and Copy sharing. Two parts are refuted: ClearContext loses the explainer, and an object with several protocols is registered with the first only (C65_first_protocol says which)."
  },
  {
   "property": "C66",
   "status": "proved",
   "theorems": [
    "Vfilter.Disp.C66_similar",
    "Vfilter.Disp.C66_similar_deterministic"
   ],
   "note": "For all names, registries and iteration orders: sorted without repetition, exactly the plugins that contain a part, and independent of the order."
  },
  {
   "property": "C67",
   "status": "proved",
   "theorems": [
    "Vfilter.Disp.C67_version"
   ],
   "note": "All histories and names."
  },
  {
   "property": "C68",
   "status": "partial",
   "theorems": [
    "Vfilter.C68_stays_open",
    "Vfilter.C68_call_outcomes",
    "Vfilter.C68_refuted"
   ],
   "note": "A scope that nobody closes, itself or an ancestor, stays open, accepts destructors and runs none, for all histories. Refuted for stored queries called with arguments: _StoredQuery.Call closes its scope while the goroutine it has started goes on; C68_call_outcomes gives the three outcomes in every program state."
  },
  {
   "property": "C69",
   "status": "partial",
   "theorems": [
    "Vfilter.Intro.C69_finishes",
    "Vfilter.Intro.C69_described",
    "Vfilter.Intro.C69_linked_partial",
    "Vfilter.Intro.C69_letters",
    "Vfilter.Intro.C69_value",
    "Vfilter.Intro.C69_by_value_refuted",
    "Vfilter.Intro.C69_pointer_list_refuted",
    "Vfilter.Intro.C69_members_refuted"
   ],
   "note": "Ending, uniqueness, preservation and the exact members of every newly described type are proved for all type graphs; pointers are described as what they point to (C69_value), and which characters a name in a tag has (C69_letters). References lead to descriptions only through lists, maps and pointers: refuted for structs by value; a list of pointers describes the struct without its fields; the member names of the outer value filter the fields of other types."
  },
  {
   "property": "C70",
   "status": "partial",
   "theorems": [
    "Vfilter.Src.C70_attributes",
    "Vfilter.Src.C70_once_partial",
    "Vfilter.Src.C70_nil_refuted",
    "Vfilter.Src.C70_ends",
    "Vfilter.Src.C70_callback"
   ],
   "note": "Visible attributes, at most one call with one value for all callers on all schedules, and no caller waits for ever. Refuted for a method that returns a nil interface: it is called for each caller. That a call of the method itself ends is assumed."
  },
  {
   "property": "C71",
   "status": "proved",
   "theorems": [
    "Vfilter.Src.C71_rows",
    "Vfilter.Src.C71_ends",
    "Vfilter.Src.C71_completes",
    "Vfilter.Src.C71_materialize",
    "Vfilter.Src.C71_materialize_goes_on"
   ],
   "note": "State machines over all schedules. The function behind a GenericListPlugin is taken to end; Materialize is proved for list sources."
  },
  {
   "property": "C72",
   "status": "partial",
   "theorems": [
    "Vfilter.Vql.C72_epoch",
    "Vfilter.Vql.C72_winfiletime",
    "Vfilter.Vql.C72_before_epoch_refuted",
    "Vfilter.Vql.C72_epoch_evaluates",
    "Vfilter.Vql.C72_winfiletime_evaluates"
   ],
   "note": "Proved for all positive n and w, as a function and for calls in queries. Refuted for n <= 0: the start of 1970 and everything before it give NULL (C72_before_epoch_refuted)."
  },
  {
   "property": "C73",
   "status": "proved",
   "theorems": [
    "Vfilter.Vql.C73_evaluates",
    "Vfilter.Vql.C73_no_args",
    "Vfilter.Vql.C73_missing"
   ],
   "note": "For calls in queries; Sprintf is a parameter of the model. The format is an expression that gives a string."
  },
  {
   "property": "C74",
   "status": "partial",
   "theorems": [
    "Vfilter.Pipe.C74_rows",
    "Vfilter.Pipe.C74_completes",
    "Vfilter.Pipe.C74_winds_down",
    "Vfilter.Pipe.C74_all_end",
    "Vfilter.Pipe.C74_all_end_refuted"
   ],
   "note": "C74_rows and C74_completes hold for all queries. C74_all_end holds if the queries given to chain have no ORDER BY, and C74_winds_down for queries without ORDER BY. Refuted without: chain may start its next query with the context LIMIT has cancelled, whose sorter returns and leaves the goroutine feeding it blocked (C74_all_end_refuted); for cancellation from outside see C39. What a goroutine sends may depend on all rows it received, but goroutines share no other state; foreach is in C39."
  },
  {
   "property": "C75",
   "status": "proved",
   "theorems": [
    "Vfilter.Fmt.Spacing.C75_spacing",
    "Vfilter.Fmt.Spacing.C75_rewritten",
    "Vfilter.Fmt.Spacing.C75_one_per_line",
    "Vfilter.Fmt.Spacing.C75_comment_within_group_by_refuted",
    "Vfilter.Fmt.Spacing.C75_blank_left_out_refuted"
   ],
   "note": "C75_rewritten and C75_one_per_line for texts split into words, C75_spacing for texts split into larger pieces that stay as they are. The refutations record the limits that the statement names: a comment cannot stand within GROUP BY, and a blank cannot always be left out (a - 1 and a -1)."
  },
  {
   "property": "C76",
   "status": "proved",
   "theorems": [
    "Vfilter.Fmt.Prec.C76_precedence",
    "Vfilter.Fmt.Prec.C76_pairs",
    "Vfilter.Fmt.Prec.C76_parentheses",
    "Vfilter.Fmt.Prec.C76_or_before_and_refuted",
    "Vfilter.Fmt.Prec.C76_chained_comparison_refuted",
    "Vfilter.Fmt.Prec.C76_index_behind_times_refuted"
   ],
   "note": "C76_precedence: reading and exact evaluation for every host. C76_pairs and C76_parentheses for hosts whose truth test is steady; std_steady shows it for the package operators. The refutations record what a reader may expect instead: OR binds tighter than AND, of chained comparisons the last is kept, 2 * a[0] is not parsed."
  },
  {
   "property": "C77",
   "status": "partial",
   "theorems": [
    "Vfilter.Expl.C77_at_any_time",
    "Vfilter.Expl.C77_complete",
    "Vfilter.Expl.C77_closed",
    "Vfilter.Expl.C77_same_query",
    "Vfilter.Expl.C77_not_held_up",
    "Vfilter.Expl.C77_announced",
    "Vfilter.Expl.C77_announcements",
    "Vfilter.Expl.C77_announced_once_refuted",
    "Vfilter.Expl.C77_group_by_refuted",
    "Vfilter.Expl.C77_scopes",
    "Vfilter.Expl.C77_other_statements",
    "Vfilter.Expl.C77_own_scope",
    "Vfilter.Expl.C77_logged",
    "Vfilter.Expl.C77_logged_refuted"
   ],
   "note": "Row reports at any time, at the end and under cancellation, equality with the unexplained query in both directions, and the exact set of explained scopes are proved. Refuted: a query with LIMIT or ORDER BY is announced again without the clause (C77_announced_once_refuted), a GROUP BY query reports no row (C77_group_by_refuted; immediate from the model, which has no calls there because vfilter_group.go has none), and the WHERE text is used as a format (C77_logged_refuted; C77_logged for texts without a percent sign). ParseArgs events are not modelled, and an explainer is assumed to return."
  },
  {
   "property": "C78",
   "status": "proved",
   "theorems": [
    "Vfilter.Expl.Stats.C78_counted_first",
    "Vfilter.Expl.Stats.C78_all_counted",
    "Vfilter.Expl.Stats.C78_given_up_refuted"
   ],
   "note": "C78_counted_first at every moment, C78_all_counted at the end. C78_given_up_refuted shows that one row may be counted and given up after cancellation. The other counters of Stats are not modelled."
  },
  {
   "property": "C79",
   "status": "partial",
   "theorems": [
    "Vfilter.Vql.Lazy.C79_not_before",
    "Vfilter.Vql.Lazy.C79_unused",
    "Vfilter.Vql.Lazy.C79_callers_scope",
    "Vfilter.Vql.Lazy.C79_once",
    "Vfilter.Vql.Lazy.C79_again_refuted",
    "Vfilter.Vql.Lazy.C79_array_refuted"
   ],
   "note": "C79_not_before, C79_unused and C79_callers_scope for arguments name=expression and every application; C79_once for Reduce and applications that do not write the caches of lazy expressions (Host.Polite). Refuted: ReduceWithScope evaluates again (C79_again_refuted), and name=[a, b] is evaluated before the call (C79_array_refuted)."
  },
  {
   "property": "C80",
   "status": "partial",
   "theorems": [
    "Vfilter.ScopeConc.C80_once",
    "Vfilter.ScopeConc.C80_kept",
    "Vfilter.ScopeConc.C80_child",
    "Vfilter.ScopeConc.C80_descendants_partial",
    "Vfilter.ScopeConc.C80_all_run_partial",
    "Vfilter.ScopeConc.C80_reverse_partial",
    "Vfilter.ScopeConc.C80_progress",
    "Vfilter.ScopeConc.C80_ends",
    "Vfilter.ScopeConc.C80_closed_refuses",
    "Vfilter.ScopeConc.C80_closed",
    "Vfilter.ScopeConc.C80_lost_refuted",
    "Vfilter.ScopeConc.C80_returns_early_refuted",
    "Vfilter.ScopeConc.C80_copy_missed_refuted",
    "Vfilter.ScopeConc.C80_child_first_refuted"
   ],
   "note": "For every schedule: C80_once, C80_kept (nothing is dropped), C80_closed and C80_closed_refuses (a closed scope takes nothing), C80_progress and C80_ends (calls end if no new ones begin). When no call is in progress: C80_child, C80_descendants_partial (copies made before a Close of the parent began are closed), C80_all_run_partial (destructors accepted before a Close began were started), C80_reverse_partial (order). Refuted: a destructor accepted, or a copy made, while Close is running may be left (C80_lost_refuted, C80_copy_missed_refuted); Close may return while another Close has yet to run a destructor (C80_returns_early_refuted); a child another goroutine is closing is not waited for (C80_child_first_refuted)."
  },
  {
   "property": "C81",
   "status": "partial",
   "theorems": [
    "Vfilter.AggConc.C81_serial",
    "Vfilter.AggConc.C81_own_instance",
    "Vfilter.AggConc.C81_calls_partial",
    "Vfilter.AggConc.C81_count_partial",
    "Vfilter.AggConc.C81_one_context",
    "Vfilter.AggConc.C81_race_refuted"
   ],
   "note": "For every schedule: C81_serial (the calls made in a context give what they give one after the other), C81_own_instance (call sites share nothing), C81_one_context (copies of a scope use one context, whoever asks first). C81_calls_partial and C81_count_partial: the statement holds if the first call of the call site has returned before another begins. Refuted without that: two goroutines that make the first call at the same time each make an instance, and count() gives 1 twice (C81_race_refuted)."
  },
  {
   "property": "C82",
   "status": "partial",
   "theorems": [
    "Vfilter.Vql.C82_star",
    "Vfilter.Vql.C82_answers_partial",
    "Vfilter.Vql.C82_columns_partial",
    "Vfilter.Structs.C82_search",
    "Vfilter.Structs.C82_field",
    "Vfilter.Structs.C82_tag",
    "Vfilter.Structs.C82_ambiguous",
    "Vfilter.Structs.C82_no_field",
    "Vfilter.Structs.C82_method",
    "Vfilter.Structs.C82_method_refused",
    "Vfilter.Structs.C82_promoted",
    "Vfilter.Structs.C82_promoted_ambiguous",
    "Vfilter.Structs.C82_members",
    "Vfilter.Structs.C82_listed_field_partial",
    "Vfilter.Structs.C82_listed_method_partial",
    "Vfilter.Structs.C82_listed_partial",
    "Vfilter.Structs.C82_tag_clash_refuted",
    "Vfilter.Structs.C82_promoted_not_listed_refuted",
    "Vfilter.Structs.C82_own_method_refuted",
    "Vfilter.Structs.C82_no_case_refuted"
   ],
   "note": "For all types and values: C82_members (what is listed), C82_field (a name that means one field, by name or tag), C82_tag (which names mean a field), C82_ambiguous, C82_promoted and C82_promoted_ambiguous (embedded structs, as in Go), C82_no_field, C82_method, C82_method_refused, C82_search (the search ends and looks deep enough for any nesting). C82_listed_partial, C82_listed_field_partial and C82_listed_method_partial: every member can be read if each means one thing (Clean); then a struct without nil interfaces answers like the dictionary of its members (C82_answers_partial) and queries over structs work as over dictionaries (C82_star, C82_columns_partial). Refuted otherwise: a field whose name is the tag of another one is listed and not found (C82_tag_clash_refuted); fields of embedded structs are found and not listed (C82_promoted_not_listed_refuted) and hide methods of the struct itself (C82_own_method_refuted); names that begin with a letter without case are listed and not found (C82_no_case_refuted)."
  },
  {
   "property": "C83",
   "status": "partial",
   "theorems": [
    "Vfilter.Fmt.C83_words",
    "Vfilter.Fmt.C83_trees",
    "Vfilter.Fmt.C83_same_tree",
    "Vfilter.Fmt.C83_rewritten",
    "Vfilter.Fmt.C83_rows_partial",
    "Vfilter.Fmt.C83_package_partial",
    "Vfilter.Fmt.C83_name_refuted"
   ],
   "note": "C83_words, C83_trees, C83_rewritten: for all texts the same words and the same trees, apart from the letters of AND, OR, TRUE and FALSE that the tree keeps; equal trees if those four are left alone (C83_same_tree). C83_rows_partial and C83_package_partial: the same rows, where the four words are in upper case in columns without AS and under $Query. Refuted there: the name of a column without AS, and $Query, show the letters as written (C83_name_refuted)."
  },
  {
   "property": "C84",
   "status": "partial",
   "theorems": [
    "Vfilter.Vql.C84_call",
    "Vfilter.Vql.C84_reported",
    "Vfilter.Vql.C84_only",
    "Vfilter.Vql.C84_masked_refuted",
    "Vfilter.Vql.C84_expression_refuted",
    "Vfilter.Vql.C84_none_refuted"
   ],
   "note": "For LET queries called as FROM f(..): C84_reported, C84_only and C84_call say exactly what is logged and when; every wrong call is reported and no right one. Refuted: missing arguments are not reported if as many others are given (C84_masked_refuted); calls inside expressions, of LET functions and LET queries, are not checked (C84_expression_refuted); nor are calls of queries without parameters (C84_none_refuted). Defaults { SELECT } for back quoted parameters are left out (Spelled)."
  },
  {
   "property": "C85",
   "status": "partial",
   "theorems": [
    "Vfilter.LazyConc.C85_value",
    "Vfilter.LazyConc.C85_same_value",
    "Vfilter.LazyConc.C85_no_more",
    "Vfilter.LazyConc.C85_overlap",
    "Vfilter.LazyConc.C85_settled",
    "Vfilter.LazyConc.C85_once_partial",
    "Vfilter.LazyConc.C85_no_waiting",
    "Vfilter.LazyConc.C85_twice_refuted",
    "Vfilter.LazyConc.C85_materialized_refuted"
   ],
   "note": "For all schedules: every value comes from the getter (C85_value, C85_same_value), no call of the getter begins after a value is stored (C85_no_more), two calls of one getter overlap (C85_overlap), a stored column without pending Get keeps its value (C85_settled), nobody waits (C85_no_waiting). Once and the same value hold if no Get of the column begins while another is at work (C85_once_partial). Refuted without that: C85_twice_refuted; MaterializedLazyRow does not store what it evaluates: C85_materialized_refuted. LazyExprImpl.Reduce, whose field has no lock at all, is not modelled."
  },
  {
   "property": "C86",
   "status": "partial",
   "theorems": [
    "Vfilter.Fmt.C86_decimal",
    "Vfilter.Fmt.C86_whole",
    "Vfilter.Fmt.C86_hex",
    "Vfilter.Fmt.C86_octal",
    "Vfilter.Fmt.C86_not_octal",
    "Vfilter.Fmt.C86_token",
    "Vfilter.Fmt.C86_hex_token",
    "Vfilter.Fmt.C86_evaluated",
    "Vfilter.Fmt.C86_zeros_refuted",
    "Vfilter.Fmt.C86_octal_refuted"
   ],
   "note": "C86_token, C86_hex_token: one token; C86_whole, C86_hex, C86_decimal: the value, with nearest double and ties to even for all decimals (C86_decimal uses the exact theorem about F64.round in F64Near); C86_octal, C86_not_octal: what a leading zero does; C86_evaluated: the value in a query. Refuted for numbers with leading zeros: 010 is 8 (C86_zeros_refuted), and octal numbers that do not fit into 64 bits are read again as decimal ones (C86_octal_refuted). strconv.ParseInt and ParseFloat follow their documentation (Number.lean)."
  },
  {
   "property": "C87",
   "status": "proved",
   "theorems": [
    "Vfilter.MixedNum.C87_compare",
    "Vfilter.MixedNum.C87_infinite",
    "Vfilter.MixedNum.C87_min",
    "Vfilter.MixedNum.C87_max",
    "Vfilter.MixedNum.C87_order",
    "Vfilter.MixedNum.C87_arithmetic",
    "Vfilter.MixedNum.C87_quotient",
    "Vfilter.MixedNum.C87_beyond_refuted"
   ],
   "note": "For binary64 as modelled in F64.lean. C87_compare (also for larger integers as long as the float is below 2^53), C87_infinite: comparison by value; C87_min, C87_max, C87_order: lists of mixed numbers (ORDER BY DESC for the insertion sort, see C32); C87_arithmetic, C87_quotient: nearest doubles (quotients of numbers that are not zero, see C03 for zero). The bound 2^53 is needed: C87_beyond_refuted."
  },
  {
   "property": "C88",
   "status": "partial",
   "theorems": [
    "Vfilter.GroupKeys.C88_text",
    "Vfilter.GroupKeys.C88_keys_partial",
    "Vfilter.GroupKeys.C88_rows_partial",
    "Vfilter.GroupKeys.C88_counts_partial",
    "Vfilter.GroupKeys.C88_kinds_refuted"
   ],
   "note": "Proved for keys of one kind (all integers, all truth values, all texts, or all floats other than NaN and -0.0; infinities included): C88_keys_partial for the texts, C88_text (the text of a double reads back as the same double), C88_rows_partial for any GROUP BY query described as in C30, C88_counts_partial for SELECT k, count() AS n .. GROUP BY k with the functions of the package. Keys of several kinds refute it in both directions: C88_kinds_refuted. Times, dicts and objects as keys are not covered (their text is a parameter)."
  },
  {
   "property": "C89",
   "status": "partial",
   "theorems": [
    "Vfilter.CallSite.C89_site",
    "Vfilter.CallSite.C89_copy",
    "Vfilter.CallSite.C89_registered_partial",
    "Vfilter.CallSite.C89_apart",
    "Vfilter.CallSite.C89_registers",
    "Vfilter.CallSite.C89_refuted"
   ],
   "note": "For all histories: C89_site (the calls at a place give what a copy of the function found by the first of them gives), C89_copy (what the first call calls: the value made by Copy, or a new value), C89_apart (places share nothing), C89_registers. C89_registered_partial: the statement holds if all calls at the place find the same function, calling does not change it, its copy is like it, and it returns no typed nil. Each condition is needed: C89_refuted (later registrations and other scopes are not seen, functions without Copy are called with empty fields, a nil slice is NULL only the first time). Calls by one goroutine at a time; see C81 for several."
  },
  {
   "property": "C90",
   "status": "partial",
   "theorems": [
    "Vfilter.LazyWord.C90_words",
    "Vfilter.LazyWord.C90_one_value_partial",
    "Vfilter.LazyWord.C90_settled",
    "Vfilter.LazyWord.C90_alone_partial",
    "Vfilter.LazyWord.C90_no_waiting",
    "Vfilter.LazyWord.C90_torn_refuted",
    "Vfilter.LazyWord.C90_half_refuted",
    "Vfilter.LazyWord.C90_once_refuted",
    "Vfilter.LazyWord.C90_nil_refuted"
   ],
   "note": "For all interleavings: C90_words (each word returned belongs to some evaluated value), C90_settled (once a call has stored a value and none is in progress, any number of callers get this value and nothing is evaluated), C90_no_waiting. C90_alone_partial: the statement for calls that do not overlap, apart from nil. C90_one_value_partial: the right value on every schedule if the expression has one value and the type word is written last. Refuted otherwise: C90_torn_refuted (type of one value, data of another), C90_half_refuted (type without data), C90_once_refuted (evaluated twice, different results), C90_nil_refuted (nil is evaluated again each time). Writes are seen by all goroutines in the order they are made; what the Go compiler may do beyond that is not modelled."
  },
  {
   "property": "C91",
   "status": "partial",
   "theorems": [
    "Vfilter.RowScopes.C91_select_open",
    "Vfilter.RowScopes.C91_select_accepts",
    "Vfilter.RowScopes.C91_select_done",
    "Vfilter.RowScopes.C91_group_open",
    "Vfilter.RowScopes.C91_group_late",
    "Vfilter.RowScopes.C91_group_held",
    "Vfilter.RowScopes.C91_group_done",
    "Vfilter.RowScopes.C91_group_refuted",
    "Vfilter.RowScopes.C91_held_refuted",
    "Vfilter.RowScopes.C91_copies_refuted"
   ],
   "note": "SELECT proved for all histories, rows and expressions that close only their own scopes: C91_select_open (while the row is there), C91_select_accepts (what the columns attach is accepted) and C91_select_done (after it; expressions copy only open scopes, and destructors register others at most ten deep, see C20). GROUP BY: C91_group_open for WHERE and the group key; C91_group_late, C91_group_held and C91_group_done say what happens instead of the rest: the scope of the columns is closed before they are evaluated and accepts nothing; the scope of a kept row is open, and its destructors have not run, until the end of the query, when both scopes are closed and all they accepted has run. Refuted for GROUP BY: C91_group_refuted (destructor of a column refused), C91_held_refuted (not run with the row), C91_copies_refuted (copy of the closed scope: never run)."
  },
  {
   "property": "C92",
   "status": "partial",
   "theorems": [
    "Vfilter.Vql.C92_args_partial",
    "Vfilter.Vql.C92_defaults_partial",
    "Vfilter.Vql.C92_args_refuted",
    "Vfilter.Vql.C92_defaults_refuted"
   ],
   "note": "C92_args_partial and C92_defaults_partial: for all orders, states and scopes, for arguments and defaults that call no aggregates, contain no negated names and have values that are data (or are queries). Variables of the scope refer to no heap objects (Tidy). With C34_shadow and C34_free_name the names in the body then mean the same. Refuted for expressions that count: C92_args_refuted (f(a=g, b=g) and f(b=g, a=g) differ) and C92_defaults_refuted (LET f(a=g, b=g) = a gives 1 or 2, depending on the order in which Go visits a map)."
  },
  {
   "property": "C93",
   "status": "partial",
   "theorems": [
    "Vfilter.Locks.C93_progress_partial",
    "Vfilter.Locks.C93_ends_partial",
    "Vfilter.Locks.C93_plain_partial",
    "Vfilter.Locks.C93_info_logs_refuted",
    "Vfilter.Locks.C93_info_reads_refuted",
    "Vfilter.Locks.C93_logger_refuted",
    "Vfilter.Locks.C93_members_refuted"
   ],
   "note": "C93_progress_partial and C93_ends_partial: for all programs and schedules, if code called back with a mutex held keeps to the order of the mutexes (lazy method values, syntax nodes, aggregator contexts, scopes from the youngest to the oldest, destructors, dispatchers); C93_plain_partial: in particular if it makes no calls of its own. Refuted without: Info that logs never returns (C93_info_logs_refuted), Info that reads a variable deadlocks with Explainer (C93_info_reads_refuted), a logger that looks at the scope when a destructor is refused (C93_logger_refuted), listing members that looks at the scope when a name is not found (C93_members_refuted). Callbacks are given as the calls they make; waiting for other things than mutexes is not modelled here (channels: C39, C74; throttler: C58). Destructors are waited for without the limit of 60 seconds."
  },
  {
   "property": "C94",
   "status": "partial",
   "theorems": [
    "Vfilter.Locks.C94_locked_partial",
    "Vfilter.Locks.C94_read_only",
    "Vfilter.Locks.C94_lookup_refuted",
    "Vfilter.Locks.C94_new_scope_refuted",
    "Vfilter.Locks.C94_clear_context_refuted"
   ],
   "note": "C94_locked_partial: for registrations and all lookups that lock the dispatcher, on dispatchers that share no maps; C94_read_only: for all calls once nothing is registered any more. Refuted: GetFunction and GetPlugin do not lock (C94_lookup_refuted), NewScope copies the maps without locking the dispatcher (C94_new_scope_refuted), ClearContext shares the maps between dispatchers with different mutexes (C94_clear_context_refuted)."
  },
  {
   "property": "C95",
   "status": "partial",
   "theorems": [
    "Vfilter.ArgDecl.C95_option",
    "Vfilter.ArgDecl.C95_usual_partial",
    "Vfilter.ArgDecl.C95_described_partial",
    "Vfilter.ArgDecl.C95_doc_refuted",
    "Vfilter.ArgDecl.C95_struct",
    "Vfilter.ArgDecl.C95_kept",
    "Vfilter.ArgDecl.C95_first",
    "Vfilter.ArgDecl.C95_register_refuted"
   ],
   "note": "C95_option: the options of every tag made of directives without commas; C95_usual_partial: name and required for tags required|optional,field=NAME[,doc=TEXT] with TEXT without commas (C95_doc_refuted: with one, the rest is read as directives); C95_described_partial: the description shows this name if it is made of letters, digits and underscores (C95_doc_refuted: not for other names, nor if the documentation in front contains field=); C95_struct: which arguments a struct has, exactly when all its tagged fields have a name, can be set and have a parser; C95_kept: once a struct has been read its parser stays the same, C95_first: until then the parsers registered last are used, and an error is not remembered; C95_register_refuted: registering afterwards has no effect. Types of fields and the parsers are parameters."
  },
  {
   "property": "C96",
   "status": "partial",
   "theorems": [
    "Vfilter.NodeCache.C96_value_partial",
    "Vfilter.NodeCache.C96_ends",
    "Vfilter.NodeCache.C96_minus_once",
    "Vfilter.NodeCache.C96_minus_refuted"
   ],
   "note": "C96_value_partial: values, parts of names, parameter lists and column names are the same for every call on every schedule; C96_ends: every call ends after at most two steps of its own. Refuted for the minus sign of a name: exactly one of all evaluations is told to negate (C96_minus_once), and which one depends on the schedule (C96_minus_refuted). A locked section is one step; what a node works out is a function of the node."
  },
  {
   "property": "C97",
   "status": "proved",
   "theorems": [
    "Vfilter.VarSlices.C97_one_moment",
    "Vfilter.VarSlices.C97_no_race"
   ],
   "note": "C97_one_moment: what a lookup reads, at any time, for all histories of new scopes, AppendVars, Copy and lookups, element by element, with the arrays of Go slices and any capacity chosen by append; C97_no_race. A locked section is one step; the rows are opaque (changes inside a row: C33, C85)."
  },
  {
   "property": "C98",
   "status": "partial",
   "theorems": [
    "Vfilter.CloseTime.C98_time",
    "Vfilter.CloseTime.C98_once",
    "Vfilter.CloseTime.C98_all",
    "Vfilter.CloseTime.C98_ends",
    "Vfilter.CloseTime.C98_alone_partial",
    "Vfilter.CloseTime.C98_reverse",
    "Vfilter.CloseTime.C98_late_refuted"
   ],
   "note": "C98_once, C98_all, C98_reverse, C98_time and C98_ends (number of steps, time, and that it always goes on) for all durations and additions; C98_alone_partial: one at a time and none left, if none runs for 60 seconds or more. Refuted for longer ones (C98_late_refuted): they run at the same time as the next ones, and still when Close has returned. Those added in the tenth round stay in the list (C20). What Close does itself takes no time in the model; children are closed before (C20, C80)."
  },
  {
   "property": "C99",
   "status": "proved",
   "theorems": [
    "Vfilter.ChildList.C99_kept",
    "Vfilter.ChildList.C99_bounded",
    "Vfilter.ChildList.C99_no_warning",
    "Vfilter.ChildList.C99_others"
   ],
   "note": "C99_kept, C99_bounded, C99_no_warning, C99_others: for all sequences of Copy and of the part of Close that takes the scope out of the list of its parent; both hold the lock of the parent, so executions of any number of goroutines are such sequences."
  },
  {
   "property": "C100",
   "status": "partial",
   "theorems": [
    "Vfilter.ThrottleScopes.C100_stays",
    "Vfilter.ThrottleScopes.C100_set",
    "Vfilter.ThrottleScopes.C100_new",
    "Vfilter.ThrottleScopes.C100_closed",
    "Vfilter.ThrottleScopes.C100_not_before",
    "Vfilter.ThrottleScopes.C100_set_late",
    "Vfilter.ThrottleScopes.C100_copies_refuted",
    "Vfilter.ThrottleScopes.C100_new_scope_refuted",
    "Vfilter.ThrottleScopes.C100_leak_refuted",
    "Vfilter.ThrottleScopes.C100_race_partial",
    "Vfilter.ThrottleScopes.C100_race_refuted"
   ],
   "note": "C100_stays, C100_set and C100_new say for all histories which throttler every scope charges: the last one set on it, otherwise the one its origin charged when it was made. C100_closed: closed with the scope it was set on, for destructors that end within ten rounds; C100_not_before: not earlier. Refuted: copies that exist already when it is set are not slowed down (C100_copies_refuted); scopes made with NewScope are not slowed down after the scope they were made from is closed (C100_new_scope_refuted); a throttler set on a closed scope is used but never closed (C100_set_late, C100_leak_refuted). Calls by one goroutine at a time, except that ChargeOp does not lock the scope: C100_race_partial (one of two throttlers of the same type is charged on every schedule), C100_race_refuted (for two of different types the method of one may be called with the data of the other)."
  },
  {
   "property": "C101",
   "status": "partial",
   "theorems": [
    "Vfilter.OutputJson.C101_result",
    "Vfilter.OutputJson.C101_cancelled",
    "Vfilter.OutputJson.C101_rate",
    "Vfilter.OutputJson.C101_ends",
    "Vfilter.OutputJson.C101_cancel_refuted"
   ],
   "note": "For all schedules: C101_result (all rows, each charged once, if the query is not cancelled), C101_cancelled (otherwise the first rows), C101_rate, C101_ends. Refuted for cancelled queries: fewer rows and no error (C101_cancel_refuted). The rows of the query are given (see C25, C39 for what a query sends); the throttler ticks or is closed, it is not replaced during the call."
  },
  {
   "property": "C102",
   "status": "partial",
   "theorems": [
    "Vfilter.Statistics.C102_exact",
    "Vfilter.Statistics.C102_meanwhile",
    "Vfilter.Statistics.C102_read",
    "Vfilter.Statistics.C102_complete",
    "Vfilter.Statistics.C102_snapshot",
    "Vfilter.Statistics.C102_snapshot_refuted",
    "Vfilter.Statistics.C102_protocol_refuted"
   ],
   "note": "For all schedules: C102_exact and C102_meanwhile (each counter, modulo 2^64), C102_read, C102_complete and C102_snapshot (each number of a snapshot is what its counter was at some moment during the execution, all are read, in order). Refuted: the numbers of one snapshot need not be those of one moment (C102_snapshot_refuted), and searches of protocols are not counted (C102_protocol_refuted). Only the atomic steps on counters are modelled; which calls a query makes is not said here."
  }
 ]
}