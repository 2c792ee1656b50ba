# Design: a Lean 4 model of ojrosten/sequoia

## Layout

* `lean/Verif/Model/*.lean` — the model: total, computable functions, each citing the file and lines in `/repo` it models.
* `lean/Verif/Spec/*.lean` — small specifications, independent of the model's helpers (what the English property says).
* `lean/Verif/Lemmas/*.lean` — helper lemmas and inductions.
* `lean/Verif/Props/*.lean` — the property theorems (the names listed in `MANIFEST.json`), each followed by an `example`
  exhibiting a concrete, non-trivial case which meets its hypotheses.
* Where the code violates a property, `Props` holds a theorem `..._violated` giving a concrete witness and a `_partial` theorem for what does hold.

## Conventions

* C++ containers are `List`s; iterators are indices; `std::size_t` is `Nat` except where the property is about wrap-around.
* A call which may fail returns `Res α`: `ok a`, `throws` (an exception) or `ub` (undefined behaviour: out-of-range
  access, reading an empty container, dereferencing an end iterator). UB is never silently totalised.
* Loops are structural recursion or recursion with a proved measure. Possibly divergent loops take fuel; the theorems
  either show that some fuel suffices (termination) or that no fuel does (divergence).
* Standard-library algorithms (`merge`, `rotate`, `lower_bound`, `unique`, `remove_if`, ...) are modelled by their documented effect.

## Plan, property by property

| id | model | proof |
|----|-------|-------|
| C01 | arrays as lists, `iter_swap`, `bubble_up/down` by recursion on the index | heap invariant with one hole; loop invariant of the extraction phase; comparator axioms only for distinct keys |
| C02 | the recursive halving with `merge` into the buffer, then copy back | equality with the specification "stable insertion sort", plus sorted/perm/stability |
| C03 | the two scanning loops with swaps | induction on length; classes contiguous |
| C04-C06 | array + end/front/back counters | refinement to lists; heap invariant |
| C07 | list with checked operations | invariant over histories |
| C08, C09 | data + partition bounds | abstraction to list of lists, commutation of each operation, then histories |
| C10-C17, C20, C21 | edge lists per node, three flavours | invariants by induction over histories; per-operation specifications |
| C18, C19 | initialisation: sort, visit, validate | iff theorems |
| C22-C26 | work-list traversal with discovered/processed marks, recursion for depth-first | loop invariants; reachability |
| C27, C28 | edge copying with a heap of weight cells; `sub_graph` as erase loop | refinement |
| C29, C30 | trees on top of the connectivity model | invariants on parent links |
| C31 | operations with a failure point | state equality after failure |
| C32, C33 | nondeterministic transition system of producer and workers | invariant + measure |
| C34 | parser as a recursive function over option trees | induction over argument lists |
| C35-C39, C56 | strings as `List Char`, find as a search function | strong induction on length |
| C40-C42 | sorted vectors with `lower_bound`; suite trees | induction |
| C43 | include graph, DFS with late nodes | reachability; witness for cycles |
| C44, C45 | recorded sets with write steps | invariant over histories; crash points |
| C46 | directory trees as ordered lists | induction; witness for the end dereference |
| C47, C48 | line based serialiser/parser | round trip |
| C49, C50 | logger as a stack machine | invariant over well-nested histories |
| C51-C54, C57, C58 | direct algebraic models over strings, rationals, integers, bit vectors | algebra |
| C55, C61 | node sorting as heap sort on positions, then partition | uses the tie-tolerant C01 |
| C56, C60 | the search for included files and for guarded occurrences, as scanners of texts | strong induction on length |
| C59 | `join` and `insert_join` on edge lists | per-operation specification, all flavours |
| C62 | the recursion schemes of the class templates on lists; `Option` is "ill-formed instantiation" | equality with list functions; witnesses where there is none |
| C63 | partial specializations as patterns with constraints and the selection rule; counting, reducing and merging of units | invariant of the counting loop; uniqueness of normal forms |
| C64 | ratios and displacements as numbers tagged integral or floating point; root transforms along chains; composites; synthesised validators | each operation computes the value it stands for; induction on the chain; the numbers of base units form a homomorphism, with C63 |
| C65 | vectors of numbers, the validator as a parameter which may throw or move values, assignments as transitions | each operator is the validator applied to the result; induction on the history |
| C66 | types as terms, values by recursion on types, a check as the events it causes in the logger and its result, the dispatch among testers, ranges and operators as in the code | one lemma on the dispatch, used in an induction on types; the logger of C49 gives the counters |
| C67 | directories as in C46, a comparison as the list of results of the checks it makes, or an exception; the comparison of files is a parameter | what passes is characterised on one level in terms of look-up by name, then by induction on the depth; together with the specification of C46 this gives that updated predictions match |
| C68 | a type is what its operations do to an arbitrary state, a check is a function of the state which logs the results of elementary checks | a check which gives up after a failure is compared with a script of steps and expectations without branches: sequential composition preserves that the log is free of failures exactly if the script is met; the rest is about the script |
| C69 | the members of the graphs of C11, with the sort as a parameter | positions before, within and after the range; what is proved of the stable sort in C02 |
| C70 | the file system is a list of paths with files or directories; the standard functions for copies, removal and creation of directories as they are used; suites in turn | an invariant of the sequence of calls: the materials of the tests dealt with are ready, nothing else has changed; calls for materials which are apart do not interfere |
| C71 | paths are lists of names, the contents of the repository are a list in the order of iteration | paths in one of three clear forms are rebased to what is meant; the rest follows by cases; counterexamples by evaluation |
| C72 | names of files as functions of the parameters; a run is a sequence of outcomes, each of which is written to files | the place follows from C71; contents by induction on the run |
| C73 | the forest of options as it stands, with a number for each function object; each function object as a function of the state; parsing as in C34 | induction on the list of invocations from the right: what each field is a function of; definedness from the arity of each option, by induction on the grammar of C34 |
| C74 | as C73 | each field only depends on the invocations of certain options, which stand together in a block; blocks of the other options may be permuted |
| C75 | the text of the command, the words into which a shell splits it, the parser and the runner of C73 again for the child; pruning; the filter of C42 | the parser is followed through the words of the command; what has been found accepts the same tests, by induction on the tests |
| C76 | as C73 | induction on the calls of the command line |
| C77 | `add_include` as a function of the text, with positions as in the code and sorting as a parameter | the loop collecting directives by induction on the lines; the comparison is an order if angles match |
| C78 | `add_to_suite` as a function of the text | programs are described by suites and tests; the first and the last occurrence of each pattern are determined in the text; induction on the tests, with the end of the suite fixed, as in the code |
| C79 | `add_to_cmake` as a function of the text, with sorting as a parameter | the loop collecting entries by induction on the entries |
| C80 | the parsing of names and parameters as functions of the text, with positions as in the code and a view of negative length as undefined behaviour | parameters and how they may be written are an inductive relation; induction on it |
| C81 | the classification of types, the loop over equivalent types, the choice of a variant and the treatment of namespaces as functions of the text | the first occurrences of patterns are determined; induction on types and lines |
| C82 | the function called for an edge, invoked along the events of the modelled breadth-first traversal; a transition is a partial function, undefined where it throws | from the theorems on traversal: the events are a permutation of the edges; the message is shown to be injective |
| C83 | classes as the names they declare; products and duals as functions giving the names declared by the specialization chosen, ill-formed if several match; recursive instantiation with fuel | an inductive relation says what is a space of which kind, parameterized by the rule for products; induction on it, for all sufficient fuel |
| C84 | the clock and the order of the tasks as arbitrary functions of everything run before; trials, attempts, statistics of real numbers, the events of the logger | a relation says which sequences of attempts there may be; induction on the attempts left; the four inequalities are equivalent to the existence of a speed-up; what is left without the extremes is unique up to the order |
| C85 | texts as lists of characters, positions as numbers, the recursion with fuel | refinement of a line-by-line relation, by induction on the lines, with the lines already compared as a parameter |
| C86 | as C68, but comparisons and serialization have effects, too, and each allocator is a counter which is a function of the state; predictions, their defaults and shifts, scoped allocators | a check which gives up after a failure is compared with an experiment without branches on results, by sequential composition; for types with known costs the state is followed through the experiment, and each demand becomes a linear equation between a prediction and a cost |
| C87 | the names of the files, the files as a list of paths and texts, executions in any order, the traversal of the directory in any order, sorting by path, reading with indentation | the files in the order of their names are given explicitly and this order is unique; the round trip of C47 is generalised to indentation, which is shown to lose nothing; C48 for each group |
| C88 | types of quantities with the constraints of the operators, expressions as trees, values in an ordered field, validators which may throw, spaces as a parameter | induction on the expression: the exponents of C63 give the dimension; factors of units as products over exponents, which are multiplicative; the half line is preserved by positive factors |
| C89 | the file system of C70 with recursive copies, renaming, removal and modification of files; the steps of `init_projects` in order; the texts of the template in the repository | an invariant for loops over the entries of a directory, from which the effect of a recursive copy follows path by path; each step in turn; replacement of marks in texts separated by other characters; that a copy of a directory into itself cannot succeed is shown by induction on the depth |
| C90 | iterators as a position in one of the vectors, with a direction, and the data of the policy; the members which hand them out; moves as programs | the place of a partition in its vector as an invariant; induction on moves and on the rounds of a loop; insertion and erasure are traced back to the calls of C08 |
| C91 | the text of a log as a function of the log and the answers to the three questions about the level of detail; what a stream makes of a floating point number is a parameter | closed form of the lines; texts are compared from left to right, labels are told apart since none is a prefix of another; failures are at most checks by C50 |
| C92 | the texts of the logger on top of the counters of C49: levels with their flags, two channels, exceptions | the reports of a tree of checks as a recursive specification; induction over the tree with an invariant which says what is added; then the destructor of the outermost sentinel by cases; induction over the checks |
| C93 | the functions which make messages; characters as numbers, paths as lists of names | injectivity by reading back: lines are split at the first line break, numbers from the end; exceptions from the state of the logger after any history, by C92 |
| C94 | constructors as functions of the lists, with the construction of the edges as in C12, C18, C19 and C58; histories with the calls which set weights | the weights are simulated by a list |
| C95 | paths as lists of names; the file system answers what is canonical and what is in a directory | induction on the path for the search; names of records split at the last dot, a number never ends a name which ends with a letter |
| C96 | the loops again, with flags for the functions which are present; functions with states as transition functions; the tasks of the pool are the numbers of the calls | simulation: the states agree but for the calls recorded; induction on the calls; the invariants of the pool |
| C97 | adaptors are positions in a list of trees; the visit is a recursion with fuel | induction on the depth; the subtrees of children are disjoint, since the ancestor at a given depth is unique |
| C98 | names are lists of characters; the passes over a name are functions with fuel; a type is a tree, with a way of writing it for each compiler | one relation for each pass, established part by part from the end of a name to its beginning; the loop over literals is shown to do what an automaton does |
| C99 | a file system with a number of changes after which the process is killed; `finalize` and all that it calls are functions on this state, for a record of what the derived classes determine; these records are given for the three kinds | a frame condition which is kept by every change, whatever the outcome; for success, an account of each path, by induction over the files |
| C100 | the printing functions of `run_tests` as functions on the indentation and the text, driven by the modelled traversal; `reset_tests` and the loop over repetitions | induction over the forest of the traversal, which in a tree has all edges in order; transport along the renumbering made by sorting; induction over repetitions |
| C101 | `add_test_suite` and what it calls on the modelled tree and filter; `check_for_missing_tests`, `nothing_to_do` and `execute` as text | the nodes added for a suite are numbered consecutively, which determines the shape of the tree; the marks of the filter are those of the first selection each search hits; composition with C41, C73 and C100 |
| C102 | the selection, composed with the records, as a transition system: files change, all tests or some are run | an invariant: every test which is neither stale nor recorded as failing passes; it is kept since an unchanged test depends on the same files as before, by induction over the dependencies |
| C103 | `generate_help` on graphs of options, with the modelled depth first traversal; messages as text | the calls of the traversal of a tree follow its structure (as for C100), so that the text is that of the tree; injectivity by reading words up to separators, and the nesting from the depths |
| C104 | directory trees with texts; sorting, binary search by name, comparison of paths, `weakly_canonical` without links; a separate specification of how a compiler looks for files | the sorted files make the binary search exact; comparison of paths as for lists; composition with the theorems on texts (C56) and on selection (C43) |
| C105 | the operations on edges and node weights in the order of the code, with a counter for the allocations and copies which succeed, or a flag for each place at which there may be a failure | costs of copies by induction over lists; the rest by cases, with C31 for the creation of edges; a tree of several nodes has none without edges |
| C106 | integral types by width, with promotion, overflow and conversion as in the standard; coordinates as lists; a separate specification of rings with partial operations | arithmetic modulo powers of two; bounds on sums and products decide whether promotion is harmless; coordinates by induction |
| C107 | the functions which put the report together, with positions, npos, and substr which may throw | where the excerpts begin, from the line breaks before the difference; what an excerpt shows, by cases |
| C108 | comparisons computed with promotion and overflow; the usual arithmetic conversions decide whether an advisor is used | ranges of differences; digits, signs and symbols cannot be confused; all pairs of types by cases |
| C109 | the checks return what is thrown, with the texts of the messages | first faults by induction along the loops; blocks and matching edges as for C18; texts and numbers alternate, so that a message can be parsed |
| C110 | a client with a program of pushes and requests on top of the transition system for C32, with the futures; `asynchronous` and `accelerate` | every execution projects to one of the pool, by adding what is pushed to the list of tasks; an invariant relates items, futures and the tasks executed; a measure and C33 for termination |
| C111 | meta data and reverse iterators on top of the model of edges for C20 | edge by edge; multiplicities do not depend on meta data |
| C112 | a shell: tokens, commands, redirections, execution with programs as a parameter; the commands of the library as texts | the reader is an automaton, so that texts can be put together; one command, then chains by induction |
| C113 | steps of tests described without the place of the project, and what a logger is told with it; messages of the library about files | the first occurrence of the place is where the message mentions it; equality of the events, hence of all outputs |
| C114 | types as a free algebra with variants, the templates as functions on them; construction of variants by the rules for converting constructors | the alternatives are distinct and are the types which occur; unique alternatives by induction over suites |
| C115 | one function of the timings and the unit, with the statistics of C52 | sorting determines the timings in between; rounding up |
| C116 | spaces as terms with the selection of partial specializations; types and values of quantities; histories as lists of units | invariant: the type is the usual one for the unit; by induction on the history, with the lemmas on values of C64 |
| C117 | the library's units as a grammar with nested prefixes, their transforms, validators, default spaces and symbols; textbook definitions as the specification | induction on prefixes: the textbook value is inverse to the coordinate of C64 |
| C118 | template arguments, values and bounds with every operation rounded, for two arbitrary floating point formats; IEEE rounding to `p` digits as an instance | each operation is monotonic; the bound of the validator is the image of zero, by induction on the chain of units; relative errors compose; for particular formats the least value is evaluated in the kernel |
| C119 | the logger of C92, and two files which are opened, truncated and written character by character; crash points are prefixes of the writes of an event | the sentinel at the bottom and the counter of critical failures are followed through every prefix of balanced events; induction over checks and tests |
| C120 | the computed bounds, in the index type, the constructor, offsets of partitions, assignment | the constructor is shown to read element `i % n` of list `i / n`; positions are decomposed accordingly; partitions of different sizes by refinement, as in C08 |
| C121 | edges with pointers into a memory, or with members, and all their special member functions | refinement of a relation which says which edges have their weight in common, over all histories |
| C122 | allocators as pairs of pointers to counters in a memory, and blocks | refinement of families with the list of the calls made, over all histories; the balance as an invariant of the latter |
| C123 | the function on texts, as for C89 | a framed notice as a decomposition of the text, which exists and is unique unless an exception is thrown |
| C124 | types as trees, with what their operator== compares | comparability as an inductive predicate; the trait is sound if nothing hidden is compared, and complete if everything visible is |
| C125 | coordinates as functions to the reals, each operation followed by a rounding function; bases by the names they declare | the fold is the sum of the products; Cauchy-Schwarz; induction over duals and products for arenas |

The status of every property, what a `_partial` theorem lacks and which `_violated` theorems go with it is in `MANIFEST.json`.

## Trusted base

1. **Lean's kernel**, version 4.33.0, and the elaborator in so far as it states the theorems as they are written. `decide +kernel` is used for closed examples and witnesses; it is
   checked by the kernel alone. There is no `native_decide`, no `bv_decide`, no `sorry`, and no axiom has been added.
2. **The axioms** each theorem depends on; they are at most `propext`, `Classical.choice` and `Quot.sound`:

<!-- axioms -->
* **none** (13): `C32_no_workers_violated`, `C42_selected_twice_violated`, `C50_caught_violated`, `C53_mixed_signs_violated`, `C53_zero_violated`, `C65_displacement_first_violated`, `C91_pad_empty_violated`, `C105_self_assign`, `C105_swap_clear`, `C108_advice_violated`, `C110_async_violated`, `C117_symbols_violated`, `C124_iterator_violated`
* **propext** (48): `C04_static_stack_too_long`, `C13_size_directed`, `C21_embedded_init_violated`, `C30_symmetric_violated`, `C35_empty_pattern_violated`, `C37_to_words`, `C41_pruned`, `C41_other_trees_violated`, `C41_backward_root_violated`, `C42_add`, `C43_removed_materials_violated`, `C46_file_over_directory_violated`, `C50_associative`, `C50_left_neutral_partial`, `C50_nested_performance_violated`, `C53_negative_violated`, `C54_polymorphic`, `C54_select_violated`, `C60_unique`, `C62_merge_unstable_violated`, `C62_union_single_violated`, `C62_flatten_violated`, `C63_single`, `C63_derived_violated`, `C66_sizes`, `C66_constraints_violated`, `C66_minimal_violated`, `C67_missing_violated`, `C71_ambiguous_violated`, `C83_half_line`, `C86_shift`, `C86_shift_pointers`, `C87_shown`, `C90_post`, `C93_path_within`, `C93_path_relative`, `C94_default`, `C95_root_violated`, `C95_records_violated`, `C96_functions_left_out`, `C96_state_violated`, `C97_adaptors`, `C105_swap_nodes_violated`, `C112_kept_partial`, `C114_shared_violated`, `C114_variant_violated`, `C124_hidden_violated`, `C125_concepts_violated`
* **Quot.sound, propext** (160): `C01_sort_perm_any_comparator`, `C03_cluster_irreflexive_diverges`, `C07_construct`, `C07_construct_static`, `C07_monotone_everywhere`, `C09_storages_interchangeable_violated`, `C13_join_directed`, `C13_join_undirected`, `C14_erase_node_throws`, `C15_insert_node`, `C20_throwing_assignment_undirected_partial`, `C20_set_weight_undirected_no_failure`, `C20_throwing_assignment_embedded_partial`, `C21_stable_sort_range`, `C22_no_start`, `C27_independent`, `C29_own_parent_violated`, `C30_prune_out_of_range`, `C31_join_directed`, `C33_no_workers_violated`, `C35_unique`, `C35_absent`, `C37_to_camel`, `C37_camel_snake_camel`, `C37_snake_camel_snake`, `C37_injective`, `C38_indent`, `C38_lines`, `C38_homomorphism`, `C38_twice`, `C38_append`, `C39_none`, `C39_same`, `C39_sandwiched`, `C40_constructible`, `C40_make_or`, `C41_leaves`, `C42_accepts`, `C42_reports_partial`, `C43_executable_out_of_date`, `C43_mutual_sources_violated`, `C43_same_names_violated`, `C44_repetitions_all`, `C44_two_tests_in_a_file_violated`, `C45_crash_violated`, `C47_total`, `C49_bounded`, `C50_sums`, `C54_contents`, `C54_allocators_partial`, `C56_finds_partial`, `C56_only_named`, `C56_white_space`, `C56_extension`, `C56_no_space_violated`, `C56_tab_violated`, `C56_space_after_hash_violated`, `C58_reject`, `C58_indices`, `C60_replaces_partial`, `C60_delimiters`, `C62_sequences`, `C62_elementary`, `C62_sort_unstable_violated`, `C62_faithful`, `C62_flatten_partial`, `C63_comparator`, `C63_cancellation_violated`, `C63_same_unit`, `C63_displacement_violated`, `C64_root`, `C65_result`, `C65_valid_partial`, `C65_affine`, `C66_constraints_partial`, `C66_exception`, `C67_empty_violated`, `C68_regular`, `C68_regular_equivalents`, `C68_move_only`, `C68_passes`, `C68_passes_move_only`, `C68_defects`, `C68_moved`, `C68_equality_violated`, `C68_order_violated`, `C68_stops`, `C68_stops_move_only`, `C69_different_nodes`, `C72_summaries`, `C72_diagnostics_partial`, `C79_missing`, `C83_kind_partial`, `C83_sound`, `C83_no_space`, `C83_dual`, `C83_involutive`, `C83_origin`, `C83_concepts`, `C83_modules_violated`, `C83_dual_module_violated`, `C83_affine_convex_violated`, `C83_vector_affine_violated`, `C83_involutive_violated`, `C83_origin_violated`, `C86_levels`, `C86_all_levels`, `C88_difference`, `C90_equal_violated`, `C90_missing_violated`, `C90_missing_index_partial`, `C90_missing_bucketed`, `C91_units`, `C91_nanoseconds`, `C94_allocators_violated`, `C95_found`, `C96_serial`, `C96_models_agree`, `C97_root_violated`, `C97_symmetric_violated`, `C97_mutate`, `C105_assign_partial`, `C105_assign_violated`, `C105_swap_nodes_partial`, `C105_erase_node_partial`, `C105_erase_node_violated`, `C106_unsigned`, `C106_coordinates_group`, `C106_coordinates_module`, `C106_half_line_violated`, `C111_reverse`, `C112_words`, `C112_relative_violated`, `C113_message`, `C113_neighbour_violated`, `C114_leaf_types`, `C114_container_partial`, `C114_repeated_violated`, `C114_faithful`, `C114_tree_same`, `C114_tree_flat`, `C116_origin_violated`, `C117_symbols_partial`, `C119_options`, `C120_access_partial`, `C120_index_violated`, `C120_linear`, `C121_moved_from`, `C122_size_violated`, `C122_size`, `C124_sound`, `C124_complete`, `C124_exact`, `C124_parts`, `C125_spaces`, `C125_callable`, `C125_canonical_violated`, `C125_origins`, `C125_dual_basis`, `C125_arenas`
* **Classical.choice, Quot.sound, propext** (618): `C01_sort`, `C01_sort_any_tie_break`, `C01_make_heap`, `C02_stable_sort`, `C03_cluster`, `C04_static_stack`, `C04_static_stack_eq`, `C04_no_default_violated`, `C05_static_queue`, `C05_static_queue_eq`, `C05_no_default_violated`, `C06_static_priority_queue`, `C06_initializer_list_partial`, `C06_initializer_list_violated`, `C06_eq_partial`, `C06_eq_violated`, `C07_checked_operations`, `C07_always_monotonic`, `C08_partitioned_sequence`, `C08_partitioned_sequence_eq`, `C09_storages_interchangeable_partial`, `C10_complementary_indices`, `C11_reciprocal`, `C12_no_dangling_directed`, `C12_no_dangling_undirected`, `C12_no_dangling_embedded`, `C12_directed_init`, `C13_size_undirected`, `C13_size_embedded`, `C13_join_embedded`, `C13_erase_edge_directed`, `C13_erase_edge_undirected`, `C13_erase_edge_embedded`, `C14_erase_node_directed`, `C14_erase_node_undirected`, `C14_erase_node_embedded`, `C15_insert_then_erase_directed`, `C15_insert_then_erase_undirected`, `C15_insert_then_erase_embedded`, `C16_swap_nodes_directed`, `C16_swap_nodes_undirected`, `C16_swap_nodes_embedded`, `C16_swap_nodes_throws`, `C17_erase_edge_directed`, `C17_erase_edge_undirected`, `C17_erase_edge_embedded`, `C18_undirected_init`, `C19_embedded_init`, `C20_set_weight_undirected`, `C20_mutate_weight_undirected`, `C20_set_weight_embedded`, `C20_mutate_weight_embedded`, `C20_set_weight_directed`, `C20_throwing_assignment_violated`, `C21_shared_history_partial`, `C21_set_weight`, `C21_mutate_weight`, `C21_erase_edge`, `C21_stable_sort`, `C21_stable_sort_violated`, `C21_undirected_init`, `C21_shared_history_embedded`, `C21_set_weight_embedded`, `C22_breadth_first`, `C22_breadth_first_all`, `C23_pseudo_depth_first`, `C23_pseudo_depth_first_all`, `C23_priority_first`, `C23_priority_first_all`, `C23_static_queue`, `C24_depth_first`, `C24_depth_first_all`, `C25_directed`, `C25_links`, `C25_embedded`, `C25_undirected_loops_partial`, `C25_containers`, `C25_undirected_loops_violated`, `C25_embedded_loop_violated`, `C26_static_breadth_first`, `C26_static_pseudo_depth_first`, `C26_static_priority_first`, `C27_copy_shared`, `C27_copy_shared_embedded`, `C28_sub_graph_directed`, `C28_sub_graph_undirected`, `C28_sub_graph_embedded`, `C29_initialization`, `C29_insert_node`, `C29_trees_stay_trees_partial`, `C29_with_prune`, `C29_backward`, `C29_missing_parent_violated`, `C30_prune_partial`, `C30_prune_forward`, `C30_prune_backward`, `C30_forward_violated`, `C31_join_undirected`, `C31_join_embedded`, `C31_insert_join_pos_partial`, `C31_insert_join_partial`, `C31_insert_join_pos_no_failure`, `C31_insert_join_no_failure`, `C31_insert_join_violated`, `C31_insert_node_partial`, `C31_add_node`, `C31_insert_node_violated`, `C32_exactly_once`, `C32_never_twice`, `C32_nodup`, `C32_order`, `C32_order_one_worker`, `C32_mutual_exclusion`, `C33_no_deadlock`, `C33_finite`, `C33_join_returns`, `C33_no_lost_wake_up`, `C34_defined`, `C34_accepts`, `C34_consumed`, `C34_unambiguous`, `C34_rejects_partial`, `C34_help`, `C34_help_first`, `C34_unknown_accepted_violated`, `C34_unknown_ignored_violated`, `C34_missing_argument_violated`, `C34_twice_violated`, `C34_group_without_arguments_violated`, `C35_replace_all`, `C35_character`, `C35_length`, `C35_several`, `C35_tabs`, `C36_terminates`, `C36_terminates_if`, `C36_none_left_partial`, `C36_fresh_character`, `C36_angle_brackets`, `C36_none_left_violated`, `C39_matched`, `C39_unmatched`, `C39_balanced`, `C40_make`, `C41_tree_partial`, `C41_tree_below_partial`, `C42_decides`, `C42_extracted`, `C43_selected_partial`, `C43_no_needless_selection`, `C44_latest_outcome_partial`, `C44_repetitions_selected`, `C44_white_space`, `C44_space_violated`, `C45_crash_partial`, `C46_updated_partial`, `C46_identical_partial`, `C46_completes_partial`, `C46_overrun_violated`, `C47_round_trip_partial`, `C47_dollar_violated`, `C48_analysis`, `C48_instability`, `C49_accounting`, `C50_no_wrap_partial`, `C51_monoid`, `C51_chain`, `C51_redirect`, `C51_preamble`, `C52_variance`, `C52_few`, `C52_sample`, `C52_affine`, `C52_nonnegative`, `C52_order`, `C53_common`, `C53_reduce_partial`, `C53_multiply`, `C53_multiply_exists_partial`, `C53_divide`, `C55_sort_tests`, `C55_executed`, `C55_recorded`, `C55_suites`, `C55_total`, `C56_comment_violated`, `C56_cutoff_violated`, `C57_bits`, `C57_boolean_algebra`, `C57_flags`, `C58_construct_partial`, `C58_many_edges_violated`, `C58_embedded_violated`, `C59_join_embedded`, `C59_insert_join`, `C59_insert_join_position`, `C59_join_then_erase`, `C59_join`, `C60_terminates`, `C60_adjacent_violated`, `C61_sort_nodes_directed`, `C61_sort_nodes_undirected`, `C61_sort_nodes_embedded`, `C61_sort_nodes_tree`, `C62_lower_bound`, `C62_merge_partial`, `C62_sort_partial`, `C62_sort_unique_partial`, `C63_determined`, `C63_wellformed_partial`, `C63_commutative`, `C63_laws`, `C63_quantities`, `C63_validator`, `C64_coordinate_partial`, `C64_displacement`, `C64_composition_partial`, `C64_composite_partial`, `C64_validator_partial`, `C64_valid_partial`, `C64_integer_displacement_violated`, `C64_three_violated`, `C64_dual_violated`, `C64_identity_shift_violated`, `C64_whole_line_violated`, `C64_negative_violated`, `C65_scaling`, `C65_default_violated`, `C66_logged`, `C66_detected`, `C66_meaning`, `C66_equality`, `C66_elements`, `C66_weaker`, `C66_strongest_partial`, `C66_strongest_violated`, `C66_any`, `C66_comparator`, `C67_equivalence`, `C67_weak`, `C67_bespoke`, `C67_completes`, `C67_reflexive`, `C67_exact`, `C67_update`, `C67_names_violated`, `C69_sort_edges`, `C69_stable_sort_edges`, `C69_swap_edges`, `C70_prepared_partial`, `C70_reset_partial`, `C70_originals`, `C70_nested_violated`, `C71_selected`, `C71_unique_partial`, `C71_sound_partial`, `C71_absolute`, `C71_exact`, `C71_other_file_violated`, `C72_place`, `C72_distinct`, `C72_discriminators`, `C72_diagnostics_files`, `C72_diagnostics_violated`, `C73_meaning`, `C73_consistent`, `C73_help`, `C73_defined_partial`, `C73_numbers`, `C73_accepted`, `C73_defined_violated`, `C73_refused_violated`, `C73_recover_violated`, `C74_order`, `C74_order_violated`, `C75_sandboxes_partial`, `C75_pruning`, `C75_spaces_violated`, `C75_recovery_violated`, `C76_created_partial`, `C76_several_violated`, `C76_none_violated`, `C77_include_partial`, `C77_none_partial`, `C77_block`, `C77_between_violated`, `C77_last_violated`, `C77_glued_violated`, `C77_arrow_violated`, `C78_suite_partial`, `C78_twice_partial`, `C78_new`, `C78_throws`, `C78_substring_violated`, `C78_again_violated`, `C78_other_violated`, `C79_cmake_partial`, `C79_twice_violated`, `C79_blank_violated`, `C80_parameters_partial`, `C80_roundtrip_partial`, `C80_text`, `C80_names_partial`, `C80_plain`, `C80_refused`, `C80_words_violated`, `C80_commas_violated`, `C80_comma_after_violated`, `C81_value_partial`, `C81_arguments_partial`, `C81_kind`, `C81_namespace`, `C81_global`, `C81_unsigned_violated`, `C81_fixed_violated`, `C81_empty_violated`, `C82_once`, `C82_transitions`, `C82_sound`, `C82_exception`, `C82_message`, `C83_rule`, `C84_arguments`, `C84_verdict`, `C84_logged`, `C84_more_attempts`, `C84_units`, `C84_wider`, `C84_steady`, `C84_no_speed_up`, `C85_exactly`, `C85_other_timings_partial`, `C85_nothing_else_partial`, `C85_lines`, `C85_later_lines_violated`, `C85_exponents_violated`, `C86_regular`, `C86_move_only`, `C86_predictions`, `C86_predictions_move_only`, `C86_defaults`, `C86_stops`, `C86_stops_move_only`, `C86_comparisons`, `C86_serialization`, `C86_init`, `C86_shared_violated`, `C86_levels_violated`, `C87_instabilities_partial`, `C87_same_file_violated`, `C87_crash_violated`, `C87_dollar_violated`, `C88_dimension`, `C88_covariant_partial`, `C88_compare_partial`, `C88_half_line`, `C88_negative`, `C88_origin_violated`, `C88_derived_violated`, `C89_rejected`, `C89_created_partial`, `C89_names`, `C89_texts_partial`, `C89_inside_violated`, `C89_dependency_violated`, `C89_identifier_violated`, `C89_repeated_violated`, `C89_owner_violated`, `C90_walk`, `C90_order`, `C90_loop`, `C90_weights`, `C90_insert`, `C90_erase`, `C91_text`, `C91_readable`, `C91_visible_partial`, `C91_hidden_violated`, `C91_rounding_violated`, `C91_pad`, `C92_report`, `C92_history`, `C92_description`, `C92_end_block`, `C92_verdict`, `C92_counters`, `C92_critical_violated`, `C92_label_violated`, `C93_character`, `C93_wide_violated`, `C93_prediction`, `C93_characters`, `C93_pointers`, `C93_path_foreign_violated`, `C93_report_line`, `C93_exception`, `C93_exception_violated`, `C94_directed`, `C94_undirected`, `C94_embedded`, `C94_static`, `C94_heterogeneous`, `C94_history_directed`, `C94_history_undirected`, `C94_history_embedded`, `C95_root_partial`, `C95_apart`, `C95_output`, `C95_project`, `C95_records`, `C96_results`, `C96_pool`, `C97_visit`, `C97_visit_backward`, `C97_forest_partial`, `C98_clang_partial`, `C98_gcc_partial`, `C98_msvc_partial`, `C98_digits_violated`, `C98_enumerators_violated`, `C98_long_violated`, `C98_spans_violated`, `C98_negative_violated`, `C98_span_partial`, `C98_special_partial`, `C99_kept`, `C99_write`, `C99_new_partial`, `C99_created_partial`, `C99_missing`, `C99_again_partial`, `C99_marks`, `C99_stubs`, `C99_allocation`, `C99_defined`, `C99_semantics`, `C99_behavioural`, `C99_outside_violated`, `C99_interrupted_violated`, `C99_retry_violated`, `C99_truncated_violated`, `C99_sample_class`, `C99_sample_semantics`, `C99_sample_equivalence`, `C100_report`, `C100_listed`, `C100_found`, `C100_all`, `C101_duplicates`, `C101_tests`, `C101_execute`, `C101_unmatched`, `C101_never_silent`, `C101_nested_duplicates_violated`, `C102_safe_partial`, `C102_same_partial`, `C102_possible`, `C102_chosen_violated`, `C102_meanwhile_violated`, `C102_executable_violated`, `C103_help`, `C103_complete`, `C103_something`, `C103_asked`, `C103_messages`, `C103_missing`, `C103_unrecognized`, `C103_comma_violated`, `C103_after_violated`, `C103_runner`, `C104_files`, `C104_includes_partial`, `C104_header_next`, `C104_selected_partial`, `C104_external`, `C104_bare_violated`, `C104_first_violated`, `C104_dots_violated`, `C104_extension_violated`, `C104_between_violated`, `C104_external_violated`, `C105_tree_no_failure`, `C105_tree_partial`, `C105_tree_violated`, `C106_unsigned_addition`, `C106_unsigned_narrow`, `C106_unsigned_short_violated`, `C106_signed_narrow`, `C106_signed_partial`, `C106_signed_violated`, `C106_bool_multiplication`, `C106_bool_violated`, `C106_half_line_partial`, `C107_total`, `C107_difference`, `C107_excerpts`, `C107_context`, `C107_genuine_partial`, `C107_differ_partial`, `C107_differ_violated`, `C107_full`, `C107_full_partial`, `C107_full_violated`, `C107_line_partial`, `C107_line_violated`, `C107_lengths_partial`, `C107_lengths_violated`, `C108_narrow`, `C108_wide_partial`, `C108_tolerance_violated`, `C108_message`, `C108_advice`, `C108_advice_partial`, `C108_ignored_violated`, `C109_directed`, `C109_embedded`, `C109_undirected_partial`, `C109_undirected_violated`, `C109_read`, `C109_checks`, `C109_max_violated`, `C110_pool`, `C110_always`, `C110_ends`, `C110_async_partial`, `C110_async_progress`, `C110_accelerate`, `C110_accelerate_ends`, `C110_in_order_partial`, `C110_in_order_violated`, `C111_set_meta`, `C111_set_meta_embedded`, `C111_mutate_meta`, `C111_mutate_meta_embedded`, `C111_link_weight`, `C111_loop_weight`, `C111_mutate_shared`, `C111_loop_violated`, `C111_mutate_shared_violated`, `C112_chain`, `C112_understood`, `C112_stage`, `C112_unwritable`, `C112_stages`, `C112_no_cache`, `C112_build`, `C112_configure`, `C112_git`, `C112_lost_violated`, `C112_arguments_violated`, `C112_blanks_violated`, `C112_errors`, `C113_description`, `C113_portable_partial`, `C113_caught`, `C113_library`, `C113_files`, `C113_twice_violated`, `C113_unexpected_violated`, `C113_outside_violated`, `C113_compared_violated`, `C114_tree_partial`, `C115_outliers`, `C115_enough_partial`, `C115_units_violated`, `C116_history_partial`, `C116_scaling_partial`, `C116_differences_partial`, `C116_space_violated`, `C116_relaxed_violated`, `C116_validator_violated`, `C116_integers_violated`, `C116_width_violated`, `C117_conversion`, `C117_difference`, `C117_accepted_partial`, `C117_chain_partial`, `C117_masses`, `C117_deduction_partial`, `C117_deduction_violated`, `C117_prefix_violated`, `C118_formats`, `C118_nearest`, `C118_order`, `C118_bound`, `C118_least`, `C118_from_base`, `C118_unshifted`, `C118_double`, `C118_float_violated`, `C118_difference_partial`, `C118_chain_partial`, `C119_crash`, `C119_over`, `C119_torn`, `C119_torn_start`, `C119_torn_violated`, `C119_verdict_partial`, `C119_verdict_violated`, `C119_exception`, `C120_construct_partial`, `C120_ragged_violated`, `C120_monotonic`, `C121_shared`, `C121_by_value`, `C121_common`, `C122_counts`, `C122_leaks`, `C123_replaced`, `C123_refused`, `C123_test`, `C123_unique`, `C123_code_violated`, `C123_again_violated`, `C125_inner`, `C125_norm`, `C125_rounded`, `C125_underflow_violated`
<!-- /axioms -->

3. **The correspondence of model and code.** The model has been written by reading `/repo`; nothing has been compiled or run. Every definition cites the lines it models and says where
   it simplifies.
4. **The standard library by its documented effect**: `std::vector`, `std::map`, `std::string` as lists with out-of-range access as undefined behaviour; `std::ranges::sort` as any
   function returning a sorted permutation; `merge`, `rotate`, `lower_bound`, `unique`, `remove_if`, `find`, `equal`, `mismatch`; `std::priority_queue` as serving a greatest element;
   mutexes, condition variables (with spurious wake-ups) and `try_lock` (which may fail) as atomic steps of a transition system; file systems as finite maps or trees; `std::stoi`,
   `std::to_string`, `std::from_chars` by the numerals they read and write; the shell, where commands are built for it, as running them in the order in which they are written.
5. **The rules of the language**, where compile-time code is modelled: template argument deduction, partial ordering of partial specializations, integral promotions and conversions,
   reduction of `std::ratio`, named return value optimisation (see the finding on `copy_edges`).

## What is modelled

| part of `/repo/Source/sequoia` | model | properties |
|---|---|---|
| `Algorithms/Algorithms.hpp` (heap sort, stable sort, cluster) | `Heap`, `StableSort`, `Cluster` | C01-C03 |
| `Core/DataStructures/Static{Stack,Queue,PriorityQueue}.hpp`, `Core/ContainerUtilities/ArrayUtilities.hpp` | `StaticContainers` | C04-C06, C26 |
| `Maths/Sequences/MonotonicSequence.hpp` | `Monotonic` | C07 |
| `Core/DataStructures/PartitionedData.hpp` | `Partitioned`, `StaticStorage`, `Assign` | C08, C09, C54, C58 |
| `Maths/Graph/Connectivity.hpp`, `GraphPrimitive.hpp`, `Edge.hpp`, `NodeStorage.hpp`, `DynamicGraph.hpp` | `Graph`, `GraphInit`, `SharedWeights`, `Rollback`, `SortNodes` | C10-C21, C27, C31, C59, C61 |
| `Maths/Graph/GraphTraversalDetails.hpp`, `{Dynamic,Static}GraphTraversalDetails.hpp`, `GraphTraversalFunctions.hpp` | `Traversal` | C22-C26 |
| `Maths/Graph/GraphAlgorithms.hpp`, `DynamicTree.hpp`, `StaticGraphDetails.hpp` | `SubGraph`, `Tree`, `StaticStorage` | C28-C30, C58 |
| `Core/Concurrency/ConcurrencyModels.hpp` | `ThreadPool` | C32, C33 |
| `Parsing/CommandLineArguments.{hpp,cpp}` | `CommandLine` | C34 |
| `TextProcessing/{Substitutions,Indent,Patterns}` | `Text` | C35-C39, C60 |
| `Core/Object/{Factory,Suite}.hpp` | `Suite` | C40-C42 |
| `TestFramework/DependencyAnalyzer.cpp` | `Dependency`, `PruneFiles`, `Includes` | C43-C45, C56 |
| `TestFramework/MaterialsUpdater.cpp` | `SoftUpdate` | C46 |
| `TestFramework/FailureInfo.cpp` | `FailureInfo` | C47, C48 |
| `TestFramework/TestLogger`, `Summary` | `Logger` | C49, C50 |
| `TestFramework/TestRunner.cpp` (sorting, running, recording) | `RunTests`, `PruneFiles` | C44, C45, C55 |
| `Runtime/ShellCommands` | `Shell` | C51 |
| `Maths/Statistics/StatisticalAlgorithms.hpp`, `Maths/Algebra/Ratio.hpp`, `Core/Logic/Bitmask.hpp` | `Statistics`, `Ratio`, `Bitmask` | C52, C53, C57 |
| `Core/Meta/{Sequences,TypeAlgorithms,TypeList}.hpp` | `TypeLists` | C62 |
| `Physics/PhysicalValuesDetails.hpp`, units in `PhysicalValues.hpp` | `Units` | C63 |
| conversions in `Physics/PhysicalValues.hpp`, `Maths/Algebra/Ratio.hpp` (products of any ratios), validators in `Spaces.hpp` | `Convert` | C64 |
| `coordinates_base` in `Maths/Geometry/Spaces.hpp` | `Coordinates` | C65 |
| `check`, `check_exception_thrown` in `FreeCheckers.hpp`; testers of strings, pairs, tuples, variants, optionals, `std::any`, pointers, functions and time points in `ConcreteTypeCheckers.hpp` | `Checkers` | C66 |
| `value_tester<std::filesystem::path>`, `general_file_checker`, `string_based_file_comparer` in `ConcreteTypeCheckers.hpp` | `PathCheck` | C67 |
| `check_semantics` and what it calls, for types without allocators, in `SemanticsCheckersDetails.hpp`, `RegularCheckersDetails.hpp`, `MoveOnlyCheckersDetails.hpp` | `Semantics` | C68 |
| `set_materials` and `reset_tests` in `TestRunner.cpp`, `individual_materials_paths` | `Materials` | C70 |
| `path_equivalence` in `TestRunner.cpp`, `rebase_from` and `find_in_tree` in `FileSystemUtilities.cpp`, `rfind` and `back` in `FileSystem.hpp` | `PathEquivalence` | C71 |
| `test_summary_filename` and `versioned_diagnostics` in `IndividualTestPaths.cpp`, the files written by `test_tracker` and `test_vessel` | `Reports` | C72 |
| `process_args`, `check_argument_consistency`, `do_prune`, the commands of `execute`, `to_async_option` in `TestRunner.cpp`; `std::stoi`; a shell for plain text | `RunnerArgs` | C73, C74, C75, C76 |
| `add_include`, `add_to_suite`, `add_to_cmake` in `FileEditors.cpp` | `FileEditors` | C77, C78, C79 |
| `handle_as_ref`, `to_string`, `generate_template_spec`, `generate_template_data`, `process_namespace`, the names in `nascent_semantics_test::finalize`, the variants and the parameters in `nascent_semantics_test::transform_file` in `TestCreator.cpp` | `TestCreator` | C80, C81 |
| `transition_info`, `transition_checker::check`, the message, in `StateTransitionUtilities.hpp` | `StateTransition` | C82 |
| `free_module`, `vector_space`, `convex_space`, `affine_space`, `free_module_type_of`, `commutative_ring_type_of`, `dimension_of`, `direct_product`, `dual`, `dual_of`, `is_half_line`, `has_distinguished_origin` in `Spaces.hpp` | `Spaces` | C83 |
| `check_relative_performance` in `PerformanceTestCore.hpp`, with real numbers | `Performance` | C84 |
| `postprocess`, `acceptable_mismatch` in `PerformanceTestCore.cpp` | `Postprocess` | C85 |
| `check_semantics` and what it calls, for types with allocators, in `RegularAllocationCheckersDetails.hpp`, `MoveOnlyAllocationCheckersDetails.hpp` (without factory functions) and `AllocationCheckersDetails.hpp`; predictions, shifts and scoped allocators in `AllocationCheckers.hpp` | `AllocationChecks` | C86 |
| `output_paths::instability_analysis_file` in `ProjectPaths.cpp`, `write_instability_analysis_output` in `FreeTestCore.cpp`, `instability_analysis` and `source_from_instability_analysis` in `FailureInfo.cpp` | `Instability` | C87 |
| the operators, the type of products and the implicit conversion of `physical_value` in `Physics/PhysicalValues.hpp` | `Quantities` | C88 |
| `init_projects` and what it calls in `ProjectCreator.cpp`, `set_top_copyright` in `TestRunnerUtilities.cpp`, with what commands do as a parameter; `aux_files/ProjectTemplate` | `ProjectCreator` | C89 |
| `Core/ContainerUtilities/Iterator.hpp` and the members of `PartitionedData.hpp` which hand out or take iterators, `edge_weight_dereference_policy` | `Iterators` | C90 |
| `TestFramework/Summary.cpp`, `Summary.hpp` | `SummaryText` | C91 |
| `TestFramework/TestLogger.cpp` (texts), `Output.cpp` (`end_block`, `footer`) | `LoggerText` | C92 |
| `TestFramework/Output.hpp`, `Output.cpp` (except names of types) | `Messages` | C93 |
| `Maths/Graph/GraphPrimitive.hpp` (constructors), `NodeStorage.hpp`, `StaticNodeStorage.hpp`, `HeterogeneousNodeStorage.hpp`, `Core/ContainerUtilities/ArrayUtilities.hpp` (types without default values) | `NodeWeights` | C94, C04, C05 |
| `TestFramework/ProjectPaths.cpp`, `ProjectPaths.hpp` (but for the lists of further sources) | `ProjectPaths` | C95 |
| `GraphTraversalDetails.hpp`: `results_accumulator`, and `inner_loop` with functions left out; `serial`, `asynchronous` | `TraversalResults` | C96 |
| `Maths/Graph/DynamicTree.hpp`: adaptors and iterators over forests | `Forest` | C97 |
| `TestFramework/Output.cpp`: names of types | `TidyName` | C98 |
| `TestFramework/TestCreator.cpp`: the files of tests | `TestFiles` | C99 |
| `TestFramework/TestRunner.cpp`: reports and repetitions | `RunReport` | C100 |
| `TestFramework/TestRunner.hpp`: adding suites; `TestRunner.cpp`: missing tests, nothing to do | `AddSuites` | C101 |
| `TestFramework/DependencyAnalyzer.cpp`: histories of changes and runs | `Incremental` | C102 |
| `Parsing/CommandLineArguments.cpp`: help and messages | `Help` | C103 |
| `TestFramework/DependencyAnalyzer.cpp`: files and what their includes refer to | `Resolve` | C104 |
| `Maths/Graph/GraphPrimitive.hpp`, `NodeStorage.hpp`: assignment, `swap`, `clear`, `swap_nodes`, `erase_node`, `insert_node_to_tree`, with failures | `WholeGraph` | C105 |
| `Maths/Geometry/Spaces.hpp`: algebraic traits of integral types, coordinates over them | `MachineNumbers` | C106 |
| `TestFramework/ConcreteTypeCheckers.hpp`: reports on strings | `StringReports` | C107 |
| `TestFramework/BinaryRelationships.hpp`, `Advice.hpp`: comparisons of integral values | `Comparisons` | C108 |
| `Maths/Graph/GraphErrors.hpp/.cpp`, `Connectivity.hpp`: messages | `GraphErrors` | C109 |
| `ConcurrencyModels.hpp`: futures, `asynchronous`; `TestRunner.cpp`: `accelerate` | `Futures` | C110 |
| `Connectivity.hpp`: meta data, reverse iterators; `Edge.hpp`: `meta_data` | `MetaData` | C111 |
| `TestFramework/Commands.cpp`; `ProjectCreator.cpp`, `TestCreator.cpp`: commands; `Runtime/ShellCommands.cpp` | `ShellRun` | C112 |
| `FreeCheckers.hpp` (exceptions, postprocessing), `FreeTestCore.hpp` (`report`), `FileSystemUtilities.cpp` (`throw_unless_*`), `Streaming.cpp` (messages) | `Portable` | C113 |
| `Core/Object/Suite.hpp`: types | `SuiteTypes` | C114 |
| `PerformanceTestCore.hpp`: `calibrate` | `Calibrate` | C115 |
| `PhysicalValues.hpp`: `conversion_space`, `relaxed_space`, `associated_displacement_space`, default arguments of `physical_value`, `convert_to` as to types | `ConversionSpace` | C116 |
| `PhysicalValues.hpp`: the units and prefixes, `default_space`, formatting | `StandardUnits` | C117 |
| `PhysicalValues.hpp`, `Ratio.hpp`, `Spaces.hpp`: conversions and validators with rounding | `RoundedConvert` | C118 |
| `TestLogger.cpp`, `TestRunner.cpp`, `FreeTestCore.hpp`: files for recovery and dump | `Recovery` | C119 |
| `StaticLinearlyPartitionedSequence.hpp`, `LinearSequence.hpp` | `LinearStorage` | C120 |
| `Maths/Graph/Edge.hpp`, `Core/Object/Handlers.hpp`: edges as objects | `EdgeObjects` | C121 |
| `TestFramework/AllocationTestUtilities.hpp`: `shared_counting_allocator` | `CountingAllocator` | C122 |
| `TestFramework/TestRunnerUtilities.cpp`: `set_top_copyright` | `ProjectCreator` | C123 |
| `Core/Meta/TypeTraits.hpp`: `is_deep_equality_comparable` | `DeepEquality` | C124 |
| `Maths/Geometry/Spaces.hpp`: Euclidean spaces, bases, arenas | `Euclidean` | C125 |

## What is not modelled

* Reading of files, other than as the whole of their contents, and what the operating system does between two calls, other than in C45 and C119.
* The remaining testers in `ConcreteTypeCheckers.hpp`, which wrap types of the standard library, and the parts of `Output.cpp` and `Advice.hpp` which depend upon the names of types as printed by the compiler, other than the rewriting of such names (C98).
* The norms, inner products and multi-dimensional bases of `Maths/Geometry/Spaces.hpp`.
* `Core/Meta/Concepts.hpp` and those parts of `TypeTraits.hpp` and `Utilities.hpp` which are not used by what is modelled; platform-specific code.
* Compilers' diagnostics, running time, memory consumption other than numbers of allocations, rounding of floating point numbers other than in C118, memory orders weaker than sequential consistency inside critical sections.

## Findings

Places where the code departs from a property a user would rely on. Those marked with a theorem are proved; the others were noticed while modelling.

* **Static priority queue**: constructed from a list shorter than its capacity it can hold padding instead of elements (`C06_initializer_list_violated`). Queues which hold the same elements can be unequal, because the heaps' arrays are compared (`C06_eq_violated`). The static containers are undefined when read while empty.
* **Storages**: bucketed and contiguous partitions differ for three kinds of call (`C09_storages_interchangeable_violated`). `to_element` in `ArrayUtilities.hpp:37` checks `i > l.size()` rather than `>=`.
* **Weights**: if the assignment of a weight throws, the partner of an edge may keep the new one (`C20_throwing_assignment_violated`).
* **Shared weights**: `stable_sort_edges` and initialization of embedded graphs break sharing (`C21_stable_sort_violated`, `C21_embedded_init_violated`). `copy_edges` moreover calls `reserve_nodes` before `m_Edges` is constructed (`Connectivity.hpp:1348`). `copy_edges` and `process_edges` refer to `this->m_Edges` while the result is being made, which is right only under named return value optimisation. Shared weights together with meta data do not seem to compile.
* **Traversal**: the edge function is called wrongly for loops (`C25_embedded_loop_violated`, `C25_undirected_loops_violated`).
* **Rollback**: `insert_join` before other edges and `insert_node` beyond the end are not undone (`C31_insert_join_violated`, `C31_insert_node_violated`).
* **Trees**: a parent which does not exist, or which is the new node itself, is not rejected in time; `prune` fails for forward trees after `insert_node`, and for symmetric trees with rearranged edges (C29, C30).
* **Thread pool**: no workers, no execution (`C32_no_workers_violated`, `C33_no_workers_violated`).
* **Command line**: unknown words which look like groups of aliases are accepted; an argument may be consumed twice; missing arguments are not always reported; a nested `--help` does not end the parsing of the outer level (C34).
* **Text**: `replace_all` with an empty pattern never ends; recursive replacement may leave occurrences; guarded replacement skips adjacent occurrences (C35, C36, C60).
* **Suites**: extraction into trees with links to the parent is wrong (C41); what is selected twice is reported as not found (C42).
* **Stale tests**: sources including each other's headers, headers with the same name, and removed materials (C43); tests sharing a source file, paths with white space (C44); a crash while records are being rewritten (C45).
* **Materials**: `soft_update` dereferences an end iterator if the last entry of the source is unmatched (C46).
* **Failure records**: a message with the line `$` is not read back (C47).
* **Summaries**: adding summaries drops messages of caught exceptions; counters wrap (C50).
* **Ratio**: mixed signs, zero numerators and negative products (C53).
* **Allocators**: constructors apply `select_on_container_copy_construction` to the allocator they are given (C54; `Connectivity.hpp:1313`, `PartitionedData.hpp:108, 908`).
* **Includes**: `#include<x>`, `#include` followed by a tab and `# include` are missed; includes in some comments are found (C56).
* **Index width**: graphs with few nodes and many edges cannot be made (C58).
* **Type lists**: `merge` and `stable_sort` are not stable; the union of a single list keeps repetitions; `flatten` leaves lists of mixed depth (C62).
* **Coordinates**: `displacement + point` calls itself without end (`Spaces.hpp:1362-1366`); default constructed values are not validated (C65).
* **Checks**: `with_best_available` compares what ordinary pointers point to although the check of equality is available and stronger (`FreeCheckers.hpp:662-665`), unlike for smart pointers, and unlike for ordinary pointers within pairs, variants and optionals, whose `operator==` compares addresses. The `test` functions for pairs, tuples, variants, optionals and pointers are unconstrained and simple equality requires an `operator==` which is not part of its constraint, so that `requires` expressions are satisfied by calls which do not compile (C66). The check with `minimal_reporting_permitted::yes` calls `with_best_available`, i.e. `minimal_reporting_permitted::no`, for the elements of ranges (`FreeCheckers.hpp:672`) and for tests (`:655`), so that a range or pair of values which can be compared but not reported does not compile, although the constraints are satisfied (`C66_minimal_violated`). Found by reading only: `check_elements` for pairs discards the state of a customizer (`ConcreteTypeCheckers.hpp:290`); the second `test` for pairs and tuples has a template parameter which cannot be deduced (`ConcreteTypeCheckers.hpp:280, 321`).
* **Checks of paths**: according to its documentation, weak equivalence ignores the names of files and directories (`ConcreteTypeCheckers.hpp:402-403`), but the names of the entries of directories are compared all the same (`C67_names_violated`).  The check of an empty path passes whatever the prediction, as long as there is nothing there (`C67_empty_violated`); with the roles exchanged, or if neither exists, there is an exception (`C67_missing_violated`).  A subdirectory called `.keep` or `x.seqpat` is ignored with all it contains.  Patterns are sought beside the prediction only, so that the check is not symmetric.
* **Checks of semantics**: that `x` and `y` differ is checked by `operator!=` only, and `x == y` is never evaluated (`SemanticsCheckersDetails.hpp:322-328`).  If `operator==` always returns true then the check passes whatever copies, assignments, moves and swaps do (`C68_equality_violated`).  For the order, only one direction is checked (`289-311`): `operator<=` and `operator>=` may always return true, and `operator<` may always return false if the first object is said to be the greater one (`C68_order_violated`).  The message at line 376 tests `order == 0` where `order < 0` seems to be meant, so that it always says that `y > x` is assumed.  The check of a type which can only be moved and serialized, with equivalents of another type, does not compile, since `check_serialization` is passed an equivalent where an object is expected.
* **Units**: a composite unit of two or more base units cannot be divided by itself; units deriving from `no_unit_t` do not cancel; the order of types is ambiguous for some displacements (C63). `product<T, U, Vs...>` declares `tpye` (`PhysicalValues.hpp:971`), so that composite units of three or more have no conversion. Conversions (C64): units in denominators are not converted, so metres per millisecond cannot become metres per second; integral displacements are divided with truncation, 32 °F may become 7/9 °C; the validator of a unit deriving by a displacement from one with `std::identity` is ambiguous; a displaced interval which is unbounded on both sides becomes a half line; a negative ratio does not reverse the half line.
* **Geometry**: `operator+(const displacement_coordinates_type&, Derived)` calls itself (`Spaces.hpp:1362-1365`). Default construction of coordinates is not validated.
* **Materials**: if the materials of a test are within those of another test which has predictions, for example for `Foo.cpp` and `Foo/Bar.cpp`, preparing one set removes, or adds to, the other (`C70_nested_violated`).
* **Selection by path**: `rebase_from` strips whatever the path has in common with the path of the directory, from the last occurrence of its first name on, even if that is not at the end of the directory's path.  For a project below `/Maths`, `select Maths/FooTest.cpp` also runs `Tests/FooTest.cpp` (`C71_other_file_violated`); `rebase_from` is not idempotent.  `find_in_tree` returns the first match in an unspecified order, so that a name shared by several files selects one of them, and, in the situation above, a stale test may not be run (`C71_ambiguous_violated`).
* **Test runner**: the name of the file for diagnostics does not involve the directory of the source, so that tests overwrite each other's output (`C72_diagnostics_violated`); after a critical failure the file is left as it was by an earlier run.  The overload of `versioned_write` for lists of messages, which keeps only the last one, is not used.  `m_RunnerMode &= runner_mode::help` leaves no mode at all, with no ill effect.  `granular_filter` yields duplicates.
* **Command line of the test runner**: `prune -cc` invokes the option `--cutoff` without arguments, and reads the first of them (`C73_defined_violated`).  `recover` removes the recovery file at once, even if the line is refused afterwards, for example because of `--thread-pool 4` (`C73_refused_violated`), and throws if there is no output directory yet (`C73_recover_violated`).  Of several choices of concurrency the last one counts (`C74_order_violated`).
* **Sandboxes**: the names of suites and files are not quoted in the commands for sandboxes; most of this library's own suites have blanks in their names, and cannot be tested in a sandbox (`C75_spaces_violated`).  `recover` and `dump` are accepted together with `--sandbox`, but have no effect (`C75_recovery_violated`).
* **Creation of tests**: `create free A.h free B.h` is accepted, but only the second test is made (`C76_several_violated`); `create free A.h create` makes the test twice (`C76_none_violated`); `create` alone creates nothing and runs all tests.
* **Adding includes**: everything between the first and the last directive is dropped, including `#ifdef` and code (`C77_between_violated`); a directive at the end of a file without a newline is lost (`C77_last_violated`); in a file without directives and without a newline at the end the new one becomes part of the last line (`C77_glued_violated`); `>` without `<` in a directive, as in a comment with an arrow, makes the comparison reflexive, and sorting is undefined (`C77_arrow_violated`).
* **Adding tests to suites**: whether a test is there is decided by looking for its text, whence `bar_test{...}` is not added if there is `foobar_test{...}` (`C78_substring_violated`); the end of the suite is not updated after an insertion, whence a test which is there may be added again (`C78_again_violated`); the name of a suite is looked for in the whole program, whence it may be found in a test of another suite (`C78_other_violated`).
* **Adding files for CMake**: a file is added even if it is in the list (`C79_twice_violated`); with the closing parenthesis on a line of its own an empty entry arises (`C79_blank_violated`).
* **Template parameters of new tests**: `unsigned long N` is read as `long N` (`C80_words_violated`); concepts with several arguments are refused (`C80_commas_violated`); a comma after the parameters makes `generate_template_data` read a view of negative length (`C80_comma_after_violated`).
* **Types of new tests**: `unsigned` is in the list of types to be passed by value but contains `signed`, which comes first, and is therefore passed by reference (`C81_unsigned_violated`); so are `int32_t` and the like because they contain `int` (`C81_fixed_violated`); an empty type leaves a trailing comma (`C81_empty_violated`).
* **Products of spaces**: no specialization of `direct_product` matches affine spaces together with convex ones if there is no vector space among them, and the empty primary template is used (`C83_affine_convex_violated`); a vector space times an affine space is only a convex space (`C83_vector_affine_violated`); for free modules over rings which are not fields, two specializations match (`C83_modules_violated`); a product of half-lines has no distinguished origin (`C83_origin_violated`), unlike `composite_space` in `PhysicalValues.hpp:145`.
* **Duals**: the dual of a free module over a ring which is not a field names itself as its free module and is no space (`C83_dual_module_violated`); a dual of a dual written explicitly is not recovered (`C83_involutive_violated`).  Noticed when reading, not modelled: `has_norm_v` and `has_inner_product_v` (`Spaces.hpp:1689-1701`) use `arbitary_basis`, which is not a basis, so that no class satisfies `normed_vector_space` or `inner_product_space`.
* **Output of performance tests**: `acceptable_mismatch` searches for "Task duration:" backwards through all preceding lines, so that a difference in an ordinary line is accepted if an earlier line has a timing which is the same (`C85_later_lines_violated`); the minus sign of an exponent is taken for that of "+-", so that timings such as 9.9e-05 and 0.0001 are not accepted (`C85_exponents_violated`).  Noticed when reading: the documentation of `check_relative_performance` (`PerformanceTestCore.hpp:47-49`) says that the test fails if `m_f + sig_f < m_s + sig_s`, whereas the code requires `m_f + sig_f < m_s - sig_s` to pass, and it requires `maxSpeedUp > minSpeedUp`, whereas the code admits equality.
* **Checks of allocations**: if the two objects share an allocator, right predictions are rejected as soon as copying the second object allocates, since its copy is made before the allocations of the first copy are counted (`C86_shared_violated`; `RegularAllocationCheckersDetails.hpp:25-31`). Too few predictions for the levels of a scoped allocator are undefined behaviour (`C86_levels_violated`; `ArrayUtilities.hpp:37`). For move-only types the prediction for moving, documented as one for `y`, is used for a move of `x`. The allocations of swaps are checked for move-only types only if the allocator is propagated by move assignment, too. The inner levels of a scoped allocator are always shifted as for containers of values. The count for copies starts before the comparisons, so that an allocation by `x != y` is reported as one by copying.
* **Analysis of instabilities**: the outputs of tests with the same name, of source files with the same name in different directories, replace each other, so that an unstable test may be missed (`C87_same_file_violated`; `ProjectPaths.cpp:351-358`). In sandbox mode the result of a child process is ignored (`ShellCommands.cpp:55`); if it ends prematurely and the number of files happens to be a multiple of the number of repetitions, outputs of different tests are compared: a crash, the most drastic instability, may be reported as "No instabilities detected", or a stable test as unstable (`C87_crash_violated`; `FailureInfo.cpp:250-253`). A line of a message which consists of a dollar sign makes the analysis throw or miss an instability (`C87_dollar_violated`).
* **Origins of quantities**: the origin is among the template arguments of `physical_value` but not of `coordinates_base`, for which comparisons are defined, and `operator-` admits any origin: points which differ in the origin are compared and subtracted as if they did not, and converted to the default origin with the number unchanged (`C88_origin_violated`; `PhysicalValues.hpp:582-598, 647-665`, `Spaces.hpp:1498-1506`). Observed, but not modelled: `operator*` admits one factor with several components, but uses `value()` of both, which is for one component only (`PhysicalValues.hpp:612`).
* **Creation of projects**: a project which is created in a directory of sequoia, other than `build` and `output`, is accepted, but then the directory in which it is is copied into itself, which ends when paths get too long for the file system, with an error which is only reported; git and the build are run nonetheless (`C89_inside_violated`; `ProjectCreator.cpp:56-63,100-103`). If the parent has sequoia as a dependency, what has been built there and all of its output are copied, because the entries are compared with the paths of the parent (`C89_dependency_violated`; `ProjectCreator.cpp:96-100`). Names with dashes or beginning with a digit are accepted, but become names of namespaces (`C89_identifier_violated`; `ProjectCreator.cpp:130,201`). In a name which contains `myProject` this is replaced again (`C89_repeated_violated`; `ProjectCreator.cpp:52-53`). If the name of the owner contains `Oliver J. Rosten`, it is the one at the top which is replaced, not that in the code (`C89_owner_violated`; `ProjectCreator.cpp:126-129`). If the directory of sequoia contains a file `.keep`, `fs::copy` throws because the template has one, too (`ProjectCreator.cpp:107`; not stated as a theorem). If a project is rejected, those before it in the list remain.
* **Iterators of partitions**: iterators are compared without their partition index, so that the end of a partition and the beginning of the next one are equal for contiguous storage, and yet `erase_from_partition` distinguishes them (`C90_equal_violated`; `Iterator.hpp:365-368`). The iterators of a missing partition delimit all elements, and the reversed ones disagree on the partition: the first claims partition 0 (`C90_missing_violated`; `PartitionedData.hpp:966`).
* **Reports of tests**: lines are left out if the number of checks is zero, but that number is a difference: a top-level check which contains a failing check and a check of performance counts as zero checks, one of which failed, and its line is left out (`C91_hidden_violated`; `Summary.cpp:146-152`, `TestLogger.cpp:278-284`). A duration of 999999ns is shown as `1e+03us` (`C91_rounding_violated`; `Summary.cpp:24-31`). `pad_left` and `pad_right` dereference the end of an empty range (`C91_pad_empty_violated`; `Summary.hpp:37-52`).
* **Messages of the logger**: whether the description of a check has been written is remembered once for both channels, so in a false-negative test a critical failure after an ordinary one is reported without saying to which check it belongs (`C92_critical_violated`; `TestLogger.cpp:165-177`). A false-positive check which passes is put into the diagnostics under the label `False Negative Failure:` (`C92_label_violated`; `TestLogger.cpp:113-137`).
* **Reports of failures**: `display_character` truncates wide characters, so that `Obtained : A, Predicted: A` may be reported for different characters (`C93_wide_violated`; `Output.hpp:75`). `path_for_reporting` puts the name of the repository in front of what remains of any absolute path after the common part, also if the file is not in the repository (`C93_path_foreign_violated`; `Output.cpp:360-364`). After a check with an empty description an exception is reported as thrown before any check (`C93_exception_violated`; `Output.cpp:302-311`).
* **Node weights**: the constructors of graphs with allocators do not compare the numbers of nodes and of weights. With too many weights a node which is added gets the first surplus weight instead of its own, with too few adding a node is undefined (`C94_allocators_violated`; `GraphPrimitive.hpp:253-268`). `to_element` reads past the end of the list, since it compares with `>` instead of `>=`: a `static_stack` or `static_queue` of elements without default value cannot be constructed unless it is full (`C04_no_default_violated`, `C05_no_default_violated`; `ArrayUtilities.hpp:37`).
* **Paths of projects**: the first element `build` of the path of the executable is taken to be that of the project. For a project in `/home/build/proj` the root is `/home` (`C95_root_violated`; `ProjectPaths.cpp:85`). The records which allow tests to be skipped depend on the directory of the executable, not on its name, so that two executables in one directory share them: once all tests of one of them have been run, changed tests of the other are skipped (`C95_records_violated`; `ProjectPaths.cpp:263-266`, `392`).
* **States of functions in traversals**: a comment in `traverse` says that the functions should not be captured by value, as they may have mutable state. `results_accumulator::push` takes them by value unless the model is `serial<void>`: with `serial<R>` a function which numbers the nodes gives each of them the number 0, and the object passed is unchanged afterwards (`C96_state_violated`; `GraphTraversalDetails.hpp:157`, `198`).
* **Forests**: `forest_iterator` takes node 0 to be the root of each tree, although `swap_nodes`, `sort_nodes` and `insert_node` may put another node there (`C97_root_violated`; `DynamicTree.hpp:364`). In symmetric trees the forest of a node contains its parent (`C97_symmetric_violated`; `DynamicTree.hpp:323`).
* **Names of types**: integers keep their suffixes if there is a digit in the name of an inner template, for instance `A<B2<3ul> >` (`C98_digits_violated`; `Output.cpp:82`); after parentheses have been removed the search goes on too far to the right, so that the third enumerator may stay (`C98_enumerators_violated`; `Output.cpp:51`); enumerators with a negative value keep the name of the enumeration (`C98_negative_violated`); `long` is replaced within names: `Belongs` becomes `Belong longs` (`C98_long_violated`; `Output.cpp:200`); only the first span has its extent changed (`C98_spans_violated`; `Output.cpp:150`).
* **Creation of tests**: a file is copied before it is transformed, and what is there is never touched; hence after a failure, for instance because of a blank equivalent type, or if the process is killed, another attempt leaves the raw template in place, not included (`C99_retry_violated`, `C99_interrupted_violated`; `TestCreator.cpp:276-326`); if the source is in the repository but not in the directory of the project, then the files are outside the directory of the tests (`C99_outside_violated`; `TestCreator.cpp:378-379`); files are edited by making them empty first (`C99_truncated_violated`; `Streaming.cpp:56-66`).
* **Duplicates of tests**: two tests of the same name and source are refused in a suite which is added directly, but not in one which is within another suite (`C101_nested_duplicates_violated`; `TestRunner.hpp:279-286`).
* **Pruning after a selected run**: the time of the file with passes is taken to be that at which each test in it passed. After a change, running any unrelated test by hand makes the tests which passed before, and which are affected by the change, seem to be up to date; they are not selected although they would fail (`C102_chosen_violated`; `DependencyAnalyzer.cpp:418, 424-434, 588-612`).
* **Help**: a comma at the end of an option's name is removed (`C103_comma_violated`; `CommandLineArguments.cpp:284-285`); what comes after a request for help within an option is still parsed, but options are not gone into, so that it may be refused (`C103_after_violated`; `CommandLineArguments.cpp:95-118`).
* **Resolution of includes**: a name without directories is only looked for next to the file (`C104_bare_violated`); of several files with the same name the one with the smallest path is taken (`C104_first_violated`); names with dots are only looked for from the directory of the file (`C104_dots_violated`); files such as `.inl` are not looked at (`C104_extension_violated`); each of these makes changed tests be skipped. Headers are not always directly after their source files, as the code claims (`C104_between_violated`; `DependencyAnalyzer.cpp:268-284`). External files are not recorded if their name is that of a file of the project (`C104_external_violated`).
* **Failures in operations on whole graphs**: the copy assignment of `node_storage` is declared `noexcept`, so that running out of memory, or a weight which throws when copied, terminates the program (`C105_assign_violated`; `NodeStorage.hpp:282`). `swap_nodes` swaps the weights before it allocates, and does not undo this (`C105_swap_nodes_violated`; `GraphPrimitive.hpp:175-183`). `erase_node` erases the edges before the weight (`C105_erase_node_violated`). `insert_node_to_tree` does not remove the new node if its edges cannot be created (`C105_tree_violated`; `GraphPrimitive.hpp:488-507`).
* **Integral types as rings**: the comments say that `bool` is the only fundamental type which is a field exactly, but `true + true` is `true`, so that it is not even a group under addition (`C106_bool_violated`; `Spaces.hpp:251`, `281-282`). `unsigned short` is taken for a ring, but is promoted to `int`, whose multiplication overflows (`C106_unsigned_short_violated`). The validator of the half line ignores unsigned types, whose subtraction wraps around (`C106_half_line_violated`; `Spaces.hpp:720-727`).
* **Reports on strings**: an excerpt which begins with a line break includes the line break at its end, since the start is moved on but the number of characters is not reduced (`C107_line_violated`; `ConcreteTypeCheckers.hpp:157-158`); two line breaks in a row are followed by dots even at the end of the string (`C107_full_violated`; `:151-162`); a difference which is a line break may be invisible (`C107_differ_violated`); the tutor made for advice on characters is not used for the check of lengths, so that all further information is lost (`C107_lengths_violated`; `:98-109, 209` with `Advice.hpp:78`). Found by reading only: excerpts are limited to sixty characters only on the last line.
* **Comparisons and advice**: the difference computed for a check within a tolerance overflows for `int` and wider types, so that the behaviour of a check which ought to fail is undefined (`C108_tolerance_violated`; `BinaryRelationships.hpp:72-76`); an advisor with unsigned parameters is used for signed values, contrary to the comment that narrowing is forbidden (`C108_advice_violated`; `Advice.hpp:78, 121-124`); an advisor whose parameters are narrower than `int` is ignored for all other types (`C108_ignored_violated`). Found by reading only: an advisor for `double` is used for `long`.
* **Graphs which are refused**: for undirected graphs the edges are sorted before they are checked, so that the message names the wrong edge of the listing (`C109_undirected_violated`; `Connectivity.hpp:1104-1124`); the message for indices out of range names the size as the greatest index: "target index 1 out of range - max index is 1" (`C109_max_violated`; `GraphErrors.cpp:60-63`). Found by reading only: for undirected graphs the message for targets out of range names no method (`Connectivity.hpp:1260`), "paritions" and "inverson" are misspelt.
* **Execution models**: `asynchronous` lets `std::async` choose, so that a function whose answer is not asked for need not be called (`C110_async_violated`; `ConcurrencyModels.hpp:184`), unlike with a pool; if a test throws while tests are executed by a pool, then the tests behind it are executed nevertheless, unlike in order (`C110_in_order_violated`). Found by reading only: with `std::execution::par` the same exception calls `std::terminate` (`TestRunner.cpp:74`).
* **Meta data**: for loops of undirected graphs the partner is sought by comparing whole edges, so that setting the weight of a loop throws "Partner weight not found" if its halves have different meta data, although for links meta data do not matter (`C111_loop_violated`; `Connectivity.hpp:1416`); `mutate_edge_weight` calls the function twice, once for each half, so that with a function which captures a state by reference the halves get different weights and the graph is not undirected any more (`C111_mutate_shared_violated`; `Connectivity.hpp:298-308`).
* **Commands**: with `--to-files` every command which creates a project replaces the output of the one before, as only the first of the commands in `cmake_cmd`, `build_cmd` and in the second commit may append, but does not (`C112_lost_violated`; `Commands.cpp:38-50`, `ProjectCreator.cpp:227-239`); a relative name is taken relative to the root for the commits and to the directory of the main file for the build (`C112_relative_violated`); the arguments of `cmake_cmd` are appended without a blank, and without `=`, so that `--preset gcc-D EXEC_ARGS x` results (`C112_arguments_violated`; `Commands.cpp:36`); names of files are not quoted (`C112_blanks_violated`).
* **Outputs which depend on the place of the project**: the default postprocessor of messages erases the first mention of the root only (`C113_twice_violated`) and one more character, whatever it is (`C113_neighbour_violated`: with the root `/p` the message `/p2/a` becomes `/a`; `FreeCheckers.hpp:302-310`); messages of unexpected exceptions and the description of comparisons of files keep absolute paths, which are written to the versioned diagnostics of false negative tests (`C113_unexpected_violated`, `C113_compared_violated`; `FreeCheckers.hpp:345-350`, `ConcreteTypeCheckers.cpp:21-25`); headers outside of the project are reported below the directory of tests (`C113_outside_violated`; `Output.cpp:352-367`). Found by reading only: the messages of `Streaming.cpp` and of `throw_unless_regular_file` have two spaces after the name of the file.
* **Suites which cannot be extracted**: with leaves of types A, B and A the container is one of `std::variant<A, B, A>`, which cannot be constructed from A (`C114_repeated_violated`; `Suite.hpp:121-126`); the type of the nodes of a tree has variants as alternatives of variants, and is ambiguous if two of them hold the same type (`C114_shared_violated`; `Suite.hpp:193-198`); a variant to which suites are transformed is merged with the other alternatives, so that it is none itself (`C114_variant_violated`; `Suite.hpp:158-181`).
* **Calibration**: the number of units per second is computed by integral division, so that a duration in minutes becomes zero (`C115_units_violated`; `PerformanceTestCore.hpp:223`).
* **Types of converted quantities**: a space with a distinguished origin may be combined with degrees Celsius, and 10 °C be doubled (`C116_space_violated`); converting a time forgets its origin, so that times since different events can be subtracted from one another (`C116_origin_violated`; `PhysicalValues.hpp:671`); it also forgets an explicit validator (`C116_validator_violated`; `PhysicalValues.hpp:672`); if the representation type is an integer, a displacement is not affine, so it gets the validator of the unit, and a negative one cannot be converted (`C116_integers_violated`; `PhysicalValues.hpp:439`); `free_module_type` of `width_space` and `height_space` is not an `associated_displacement_space`, so that `conversion_space` for displacements does not apply (`C116_width_violated`; `PhysicalValues.hpp:895, 901`).
* **Units with prefixes**: `micro`, `milli`, `kilo` and `mega` take over the validator of the unit although their base class synthesises the right one (`PhysicalValues.hpp:1212, 1219, 1226, 1233`), so 100 K cannot be converted to milli degrees Celsius and -1 kilo degree Celsius is accepted (`C117_prefix_violated`); they have no symbol, so that the unit is missing if a mass in grams is formatted (`C117_symbols_violated`); `default_space` of a unit with a translation derives from itself (`PhysicalValues.hpp:1417-1419`), so that even asking for `has_default_space_v<celsius_t, double>` is an error (`C117_deduction_violated`).
* **Absolute zero in degrees Fahrenheit**: with `float`, 0 K can be converted to -459.67 °F, but this can neither be converted back to kelvin nor to degrees Celsius: the result is -1.6e-05 K, and the validator throws, whatever the precision of `long double` (`C118_float_violated`). There is no such problem with `double` (`C118_double`).
* **An empty recovery file**: the file is truncated before the next check is announced; if the process dies in between then the file names neither the previous nor the next check (`C119_torn_violated`).
* **Ragged lists**: `static_linearly_partitioned_sequence<int, 2, 2>{{1, 2, 3}, {4}}` is not rejected; the constructor reads beyond the end of the second list (`C120_ragged_violated`).
* **Narrow indices**: `static_linearly_partitioned_sequence<int, 16, 16, std::uint8_t>` can be constructed, but `partition`, `end_partition` and `size_of_partition` call `get_end_iterator`, which throws, and are `noexcept`, apart from the last (`C120_index_violated`).
* `swap_partitions` needs `mutate`, which `static_linear_sequence` does not have, so it cannot be called for partitions of equal size.
* **"Check ended"**: a check with this description seems to be over as soon as it has begun (`C119_verdict_violated`).
* **Changes during a pruned run**: for runs of all tests the time is that of the beginning, but for selected tests it is that at which the results are written, so that changes made meanwhile are overlooked (`C102_meanwhile_violated`; `DependencyAnalyzer.cpp:434, 612`).
* **Executable out of date**: this is noticed when pruning, but not when all tests are run; the stamp is updated nevertheless, and changes which the executable lacks are not noticed later (`C102_executable_violated`; `TestRunner.cpp:260-272`).
* **Edges which have been moved from**: if weights are shared, copying or comparing such an edge, and even giving it a new weight, dereference a null pointer; it can only be assigned to, given a target, or be destroyed (`C121_moved_from`). With weights by value all of this is defined.
* **Counting allocators and large requests**: `shared_counting_allocator::allocate(n)` multiplies `n` by `sizeof(T)` without a check, so that e.g. 2^61 objects of 8 bytes yield a block of no bytes, where `std::allocator` throws (`C122_size_violated`).
* **Notices of copyright**: the first occurrence of the word anywhere in a file is taken to be the notice, and its frame may extend over several lines; code between two comments is lost if the word occurs in it (`C123_code_violated`). If an owner's name contains `//`, as in a URL, then the notice cannot be replaced again (`C123_again_violated`).
* **Deep equality**: only `value_type` or the elements of a template's instance are looked at. `std::expected<int, T>`, and classes derived from `std::pair<int, T>`, are said to be comparable if T is not (`C124_hidden_violated`); iterators are said not to be if what they point to is not (`C124_iterator_violated`).
* **Euclidean spaces**: `inner_product_space` and `normed_vector_space` are satisfied by no space, since `arbitary_basis`, with respect to which they ask for coordinates, is not a basis (`C125_concepts_violated`); `vec_coords` has neither norm nor inner product, since `canonical_right_handed_basis` does not declare `orthonormal` (`C125_canonical_violated`); `norm` underflows to zero for small vectors in more than one dimension (`C125_underflow_violated`).

## Testing the theorems

`seeded/LOG.jsonl` lists edits of the model in the way of realistic bugs, the claim each breaks, and the theorems and lemmas which then fail to build.

## Comparing the model with the files of the repository

Where the repository contains what its tests expect, the model can be run on the same input.  This is evaluation, not proof, and says nothing about other input; it is evidence that the model is the code.

* `tools/conformance/TestCreation.txt` runs `TestFiles.finalize` on the 25 commands in Tests/TestFramework/TestRunnerTestCreation.cpp:134-160, with the templates in aux_files, and compares every file below Source, Tests and TestSandbox in TestMaterials/TestFramework/TestRunnerTestCreation/Prediction with what results.  For both projects all 122 files are the same, and no others result.  `CMakePresets.json`, which the test copies itself, is left out.  The requests are written out by hand rather than by the model of the command line; for `gen-source "::"` the namespace is empty, as in TestRunner.cpp:426.
