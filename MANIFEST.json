{
 "claims": [
  {
   "property": "C01",
   "status": "proved",
   "theorems": [
    "Verif.Props.C01_sort",
    "Verif.Props.C01_sort_any_tie_break",
    "Verif.Props.C01_sort_perm_any_comparator",
    "Verif.Props.C01_make_heap"
   ],
   "note": "Total model on vectors; strict weak order assumed of the comparator except between ties."
  },
  {
   "property": "C02",
   "status": "proved",
   "theorems": [
    "Verif.Props.C02_stable_sort"
   ],
   "note": "std::ranges::merge by documented effect."
  },
  {
   "property": "C03",
   "status": "proved",
   "theorems": [
    "Verif.Props.C03_cluster",
    "Verif.Props.C03_cluster_irreflexive_diverges"
   ],
   "note": "Equivalence relation assumed; without reflexivity the code is proved to diverge (C03_cluster_irreflexive_diverges)."
  },
  {
   "property": "C04",
   "status": "partial",
   "theorems": [
    "Verif.Props.C04_static_stack",
    "Verif.Props.C04_static_stack_too_long",
    "Verif.Props.C04_static_stack_eq",
    "Verif.Props.C04_no_default_violated"
   ],
   "note": "Histories of any length; popping or reading an empty stack is undefined behaviour in both model and specification. Elements have a default value; without one a stack which is not full cannot be constructed (C04_no_default_violated)."
  },
  {
   "property": "C05",
   "status": "partial",
   "theorems": [
    "Verif.Props.C05_static_queue",
    "Verif.Props.C05_static_queue_eq",
    "Verif.Props.C05_no_default_violated"
   ],
   "note": "Histories of any length; reading an empty queue is undefined behaviour. Elements have a default value; without one a queue which is not full cannot be constructed (C05_no_default_violated)."
  },
  {
   "property": "C06",
   "status": "partial",
   "theorems": [
    "Verif.Props.C06_static_priority_queue",
    "Verif.Props.C06_initializer_list_partial",
    "Verif.Props.C06_initializer_list_violated",
    "Verif.Props.C06_eq_partial",
    "Verif.Props.C06_eq_violated"
   ],
   "note": "Everything proved for queues built empty. The initializer_list constructor holds the listed elements only if the default padding is not greater than a listed element; the general claim is false of the code (C06_initializer_list_violated). operator== is that of the arrays of the heaps: equal queues behave alike for ever (C06_eq_partial), but queues which hold the same elements need not be equal (C06_eq_violated)."
  },
  {
   "property": "C07",
   "status": "proved",
   "theorems": [
    "Verif.Props.C07_checked_operations",
    "Verif.Props.C07_construct",
    "Verif.Props.C07_construct_static",
    "Verif.Props.C07_always_monotonic",
    "Verif.Props.C07_monotone_everywhere"
   ],
   "note": "Strict weak order assumed of Compare; the explicitly unsafe mutate overload is outside the checked interface."
  },
  {
   "property": "C08",
   "status": "proved",
   "theorems": [
    "Verif.Props.C08_partitioned_sequence",
    "Verif.Props.C08_partitioned_sequence_eq"
   ],
   "note": "Construction, every history of calls, and operator==. Asking for a partition that does not exist is outside the specification."
  },
  {
   "property": "C09",
   "status": "partial",
   "theorems": [
    "Verif.Props.C09_storages_interchangeable_partial",
    "Verif.Props.C09_storages_interchangeable_violated"
   ],
   "note": "False for three kinds of call (witnesses in C09_storages_interchangeable_violated); proved for all histories without them."
  },
  {
   "property": "C10",
   "status": "proved",
   "theorems": [
    "Verif.Props.C10_complementary_indices"
   ],
   "note": "All histories of add/insert/erase/swap_nodes, join, both insert_join forms, erase_edge, set/mutate weight, clear. Fault injection (exceptions from element operations) is C31."
  },
  {
   "property": "C11",
   "status": "proved",
   "theorems": [
    "Verif.Props.C11_reciprocal"
   ],
   "note": "As C10, plus swap_edges, sort_edges and stable_sort_edges. std::sort by documented effect (any function returning a permutation)."
  },
  {
   "property": "C12",
   "status": "proved",
   "theorems": [
    "Verif.Props.C12_no_dangling_directed",
    "Verif.Props.C12_no_dangling_undirected",
    "Verif.Props.C12_no_dangling_embedded",
    "Verif.Props.C12_directed_init"
   ],
   "note": "All three flavours."
  },
  {
   "property": "C13",
   "status": "proved",
   "theorems": [
    "Verif.Props.C13_size_directed",
    "Verif.Props.C13_size_undirected",
    "Verif.Props.C13_size_embedded",
    "Verif.Props.C13_join_directed",
    "Verif.Props.C13_join_undirected",
    "Verif.Props.C13_join_embedded",
    "Verif.Props.C13_erase_edge_directed",
    "Verif.Props.C13_erase_edge_undirected",
    "Verif.Props.C13_erase_edge_embedded"
   ],
   "note": "All three flavours."
  },
  {
   "property": "C14",
   "status": "proved",
   "theorems": [
    "Verif.Props.C14_erase_node_directed",
    "Verif.Props.C14_erase_node_undirected",
    "Verif.Props.C14_erase_node_embedded",
    "Verif.Props.C14_erase_node_throws"
   ],
   "note": "All three flavours."
  },
  {
   "property": "C15",
   "status": "proved",
   "theorems": [
    "Verif.Props.C15_insert_node",
    "Verif.Props.C15_insert_then_erase_directed",
    "Verif.Props.C15_insert_then_erase_undirected",
    "Verif.Props.C15_insert_then_erase_embedded"
   ],
   "note": "All three flavours."
  },
  {
   "property": "C16",
   "status": "proved",
   "theorems": [
    "Verif.Props.C16_swap_nodes_directed",
    "Verif.Props.C16_swap_nodes_undirected",
    "Verif.Props.C16_swap_nodes_embedded",
    "Verif.Props.C16_swap_nodes_throws"
   ],
   "note": "All three flavours, including the throwing case."
  },
  {
   "property": "C17",
   "status": "proved",
   "theorems": [
    "Verif.Props.C17_erase_edge_directed",
    "Verif.Props.C17_erase_edge_undirected",
    "Verif.Props.C17_erase_edge_embedded"
   ],
   "note": "All three flavours."
  },
  {
   "property": "C18",
   "status": "proved",
   "theorems": [
    "Verif.Props.C18_undirected_init"
   ],
   "note": "Empty, totally ordered and equality-only weights. Assumes what the concepts in the code assume of the weight type."
  },
  {
   "property": "C19",
   "status": "proved",
   "theorems": [
    "Verif.Props.C19_embedded_init"
   ],
   "note": "Without sharing; sharing is C21."
  },
  {
   "property": "C20",
   "status": "partial",
   "theorems": [
    "Verif.Props.C20_set_weight_undirected",
    "Verif.Props.C20_mutate_weight_undirected",
    "Verif.Props.C20_set_weight_embedded",
    "Verif.Props.C20_mutate_weight_embedded",
    "Verif.Props.C20_set_weight_directed",
    "Verif.Props.C20_throwing_assignment_undirected_partial",
    "Verif.Props.C20_set_weight_undirected_no_failure",
    "Verif.Props.C20_throwing_assignment_embedded_partial",
    "Verif.Props.C20_throwing_assignment_violated"
   ],
   "note": "Effect proved for all flavours; for undirected graphs with meta data see C111. When the assignment throws part way (Props/Rollback) the graph is left unchanged except if assigning the selected half itself throws, where the partner keeps the new weight (C20_throwing_assignment_violated)."
  },
  {
   "property": "C21",
   "status": "partial",
   "theorems": [
    "Verif.Props.C21_shared_history_partial",
    "Verif.Props.C21_set_weight",
    "Verif.Props.C21_mutate_weight",
    "Verif.Props.C21_erase_edge",
    "Verif.Props.C21_stable_sort",
    "Verif.Props.C21_stable_sort_range",
    "Verif.Props.C21_stable_sort_violated",
    "Verif.Props.C21_undirected_init",
    "Verif.Props.C21_shared_history_embedded",
    "Verif.Props.C21_set_weight_embedded",
    "Verif.Props.C21_embedded_init_violated"
   ],
   "note": "Proved for embedded graphs for all histories, for undirected graphs for all histories without stable_sort_edges, and for the construction of undirected graphs from initializer lists (C21_undirected_init). The property is false of the code for stable_sort_edges (C21_stable_sort_violated) and for embedded graphs built from initializer lists (C21_embedded_init_violated)."
  },
  {
   "property": "C22",
   "status": "proved",
   "theorems": [
    "Verif.Props.C22_breadth_first",
    "Verif.Props.C22_breadth_first_all",
    "Verif.Props.C22_no_start"
   ],
   "note": "Queue-based traversal model; termination, exactly the reachable nodes, once, in order of distance; find_disconnected too. User functions that throw are not modelled."
  },
  {
   "property": "C23",
   "status": "proved",
   "theorems": [
    "Verif.Props.C23_pseudo_depth_first",
    "Verif.Props.C23_pseudo_depth_first_all",
    "Verif.Props.C23_priority_first",
    "Verif.Props.C23_priority_first_all",
    "Verif.Props.C23_static_queue"
   ],
   "note": "std::priority_queue enters as the assumption Serves (returns a greatest element); static_priority_queue is proved to satisfy it."
  },
  {
   "property": "C24",
   "status": "proved",
   "theorems": [
    "Verif.Props.C24_depth_first",
    "Verif.Props.C24_depth_first_all"
   ],
   "note": "Calls are exactly those of a spanning tree or forest in depth first order."
  },
  {
   "property": "C25",
   "status": "partial",
   "theorems": [
    "Verif.Props.C25_directed",
    "Verif.Props.C25_links",
    "Verif.Props.C25_embedded",
    "Verif.Props.C25_undirected_loops_partial",
    "Verif.Props.C25_containers",
    "Verif.Props.C25_undirected_loops_violated",
    "Verif.Props.C25_embedded_loop_violated"
   ],
   "note": "Proved for directed graphs, for links of all graphs, and for embedded graphs (loops included, except pseudo depth first). Undirected loops: only alternation; the full property is false, see the two _violated theorems."
  },
  {
   "property": "C26",
   "status": "proved",
   "theorems": [
    "Verif.Props.C26_static_breadth_first",
    "Verif.Props.C26_static_pseudo_depth_first",
    "Verif.Props.C26_static_priority_first"
   ],
   "note": "Static queue and stack: same calls as the dynamic ones. Static priority queue: no overflow or bad access."
  },
  {
   "property": "C27",
   "status": "proved",
   "theorems": [
    "Verif.Props.C27_copy_shared",
    "Verif.Props.C27_copy_shared_embedded",
    "Verif.Props.C27_independent"
   ],
   "note": "Copies of graphs with shared weights; by-value copies are value semantics of the C++ containers. Relies on named return value optimisation in copy_edges, see DESIGN."
  },
  {
   "property": "C28",
   "status": "proved",
   "theorems": [
    "Verif.Props.C28_sub_graph_directed",
    "Verif.Props.C28_sub_graph_undirected",
    "Verif.Props.C28_sub_graph_embedded"
   ],
   "note": "sub_graph terminates and returns the induced subgraph, for directed, undirected and embedded graphs satisfying their invariant; the embedded result is again well formed."
  },
  {
   "property": "C29",
   "status": "partial",
   "theorems": [
    "Verif.Props.C29_initialization",
    "Verif.Props.C29_insert_node",
    "Verif.Props.C29_trees_stay_trees_partial",
    "Verif.Props.C29_with_prune",
    "Verif.Props.C29_backward",
    "Verif.Props.C29_missing_parent_violated",
    "Verif.Props.C29_own_parent_violated"
   ],
   "note": "Proved for initialization and for every history whose calls name a parent which exists and is not the new node itself. Violated otherwise: add_node with a parent out of range throws after inserting the node, leaving an orphan; add_node naming the index the new node will get silently creates a loop."
  },
  {
   "property": "C30",
   "status": "partial",
   "theorems": [
    "Verif.Props.C30_prune_partial",
    "Verif.Props.C30_prune_forward",
    "Verif.Props.C30_prune_backward",
    "Verif.Props.C30_prune_out_of_range",
    "Verif.Props.C30_forward_violated",
    "Verif.Props.C30_symmetric_violated"
   ],
   "note": "Proved for backward trees however made; for the other link directions when trees are made by initialization, add_node, prune (and, forward trees, edge rearrangement). Violated: forward trees with a child numbered before its parent (insert_node) prune the wrong nodes and throw; symmetric trees with rearranged edges recurse for ever."
  },
  {
   "property": "C31",
   "status": "partial",
   "theorems": [
    "Verif.Props.C31_join_directed",
    "Verif.Props.C31_join_undirected",
    "Verif.Props.C31_join_embedded",
    "Verif.Props.C31_insert_join_pos_partial",
    "Verif.Props.C31_insert_join_partial",
    "Verif.Props.C31_insert_join_pos_no_failure",
    "Verif.Props.C31_insert_join_no_failure",
    "Verif.Props.C31_insert_join_violated",
    "Verif.Props.C31_insert_node_partial",
    "Verif.Props.C31_add_node",
    "Verif.Props.C31_insert_node_violated"
   ],
   "note": "Proved for join (all flavours), add_node, insert_node at positions up to the end, and insert_join whose first half goes to the end of its node. Violated: insert_join before other edges does not restore complementary indices; insert_node beyond the end erases out of range on failure."
  },
  {
   "property": "C32",
   "status": "proved",
   "theorems": [
    "Verif.Props.C32_exactly_once",
    "Verif.Props.C32_never_twice",
    "Verif.Props.C32_nodup",
    "Verif.Props.C32_order",
    "Verif.Props.C32_order_one_worker",
    "Verif.Props.C32_mutual_exclusion",
    "Verif.Props.C32_no_workers_violated"
   ],
   "note": "For every number of workers greater than zero, both kinds of pool, every list of tasks and every schedule of a transition system of task_queue and thread_pool (mutexes, condition variables with spurious wake-ups, try_lock which may fail): when join has returned, the tasks executed are the tasks pushed with multiplicities; never more often; in order with a single queue. With no workers the claim fails (C32_no_workers_violated). Tasks terminate and do not use the pool; futures and the memory model are not modelled (each critical section is sequentially consistent)."
  },
  {
   "property": "C33",
   "status": "proved",
   "theorems": [
    "Verif.Props.C33_no_deadlock",
    "Verif.Props.C33_finite",
    "Verif.Props.C33_join_returns",
    "Verif.Props.C33_no_lost_wake_up",
    "Verif.Props.C33_no_workers_violated"
   ],
   "note": "Every reachable state in which join has not returned has a step which is not a spurious wake-up; the number of steps is bounded independently of the schedule, up to two for each spurious wake-up; and if the workers cannot step while the owner rests, everything pushed has been executed (no lost wake-up). With no workers pushing to a pool with a queue per worker is undefined (C33_no_workers_violated)."
  },
  {
   "property": "C34",
   "status": "partial",
   "theorems": [
    "Verif.Props.C34_defined",
    "Verif.Props.C34_accepts",
    "Verif.Props.C34_consumed",
    "Verif.Props.C34_unambiguous",
    "Verif.Props.C34_rejects_partial",
    "Verif.Props.C34_help",
    "Verif.Props.C34_help_first",
    "Verif.Props.C34_unknown_accepted_violated",
    "Verif.Props.C34_unknown_ignored_violated",
    "Verif.Props.C34_missing_argument_violated",
    "Verif.Props.C34_twice_violated",
    "Verif.Props.C34_group_without_arguments_violated"
   ],
   "note": "For every forest of options and list of arguments: parsing is defined; a command line of the grammar in Spec/CommandLine is accepted and its invocations, with their arguments and in their order, are those the grammar gives it; the grammar is unambiguous and consumes each argument exactly once; anything else is rejected. Acceptance assumes that words are orderly, rejection also that options without function object have no parameters below the top level. Without these conditions the claim is false: unknown words which look like groups of aliases are accepted or ignored, an argument is consumed twice, missing arguments are not reported (five violations). The texts of help and exceptions are the subject of C103."
  },
  {
   "property": "C35",
   "status": "partial",
   "theorems": [
    "Verif.Props.C35_replace_all",
    "Verif.Props.C35_unique",
    "Verif.Props.C35_absent",
    "Verif.Props.C35_character",
    "Verif.Props.C35_length",
    "Verif.Props.C35_several",
    "Verif.Props.C35_tabs",
    "Verif.Props.C35_empty_pattern_violated"
   ],
   "note": "Proved for every text and every non-empty pattern. For an empty pattern the claim is false: the loop never ends (C35_empty_pattern_violated)."
  },
  {
   "property": "C36",
   "status": "partial",
   "theorems": [
    "Verif.Props.C36_terminates",
    "Verif.Props.C36_terminates_if",
    "Verif.Props.C36_none_left_partial",
    "Verif.Props.C36_fresh_character",
    "Verif.Props.C36_angle_brackets",
    "Verif.Props.C36_none_left_violated"
   ],
   "note": "Termination is characterised exactly. Absence of occurrences is proved under a condition on pattern and replacement (met by the use in the test framework); without it the claim is false (C36_none_left_violated)."
  },
  {
   "property": "C37",
   "status": "proved",
   "theorems": [
    "Verif.Props.C37_to_camel",
    "Verif.Props.C37_to_words",
    "Verif.Props.C37_camel_snake_camel",
    "Verif.Props.C37_snake_camel_snake",
    "Verif.Props.C37_injective"
   ],
   "note": "Characters are classified as in the C locale; the functions are characterised for every text, the round trips hold for well-formed names."
  },
  {
   "property": "C38",
   "status": "proved",
   "theorems": [
    "Verif.Props.C38_indent",
    "Verif.Props.C38_lines",
    "Verif.Props.C38_homomorphism",
    "Verif.Props.C38_twice",
    "Verif.Props.C38_append"
   ],
   "note": ""
  },
  {
   "property": "C39",
   "status": "proved",
   "theorems": [
    "Verif.Props.C39_none",
    "Verif.Props.C39_matched",
    "Verif.Props.C39_unmatched",
    "Verif.Props.C39_balanced",
    "Verif.Props.C39_same",
    "Verif.Props.C39_sandwiched"
   ],
   "note": "Exact characterisations of all three outcomes, and of find_sandwiched_text."
  },
  {
   "property": "C40",
   "status": "proved",
   "theorems": [
    "Verif.Props.C40_constructible",
    "Verif.Props.C40_make",
    "Verif.Props.C40_make_or"
   ],
   "note": "Names are elements of a linear order with a distinguished empty one; std::ranges::sort is any function which returns an ordered permutation; lower_bound is modelled as the binary search."
  },
  {
   "property": "C41",
   "status": "partial",
   "theorems": [
    "Verif.Props.C41_leaves",
    "Verif.Props.C41_tree_partial",
    "Verif.Props.C41_tree_below_partial",
    "Verif.Props.C41_pruned",
    "Verif.Props.C41_other_trees_violated",
    "Verif.Props.C41_backward_root_violated"
   ],
   "note": "Proved for extraction into containers and into forward trees. For trees with links to the parent the claim is false: C41_other_trees_violated, C41_backward_root_violated."
  },
  {
   "property": "C42",
   "status": "partial",
   "theorems": [
    "Verif.Props.C42_accepts",
    "Verif.Props.C42_decides",
    "Verif.Props.C42_extracted",
    "Verif.Props.C42_reports_partial",
    "Verif.Props.C42_add",
    "Verif.Props.C42_selected_twice_violated"
   ],
   "note": "Acceptance is proved for all selections. The report is proved if nothing is selected more than once; otherwise it is wrong (C42_selected_twice_violated)."
  },
  {
   "property": "C43",
   "status": "partial",
   "theorems": [
    "Verif.Props.C43_selected_partial",
    "Verif.Props.C43_no_needless_selection",
    "Verif.Props.C43_executable_out_of_date",
    "Verif.Props.C43_mutual_sources_violated",
    "Verif.Props.C43_same_names_violated",
    "Verif.Props.C43_removed_materials_violated"
   ],
   "note": "Soundness is proved for every dependency graph; completeness if the files can be put into layers and the header of each source file is in the same or the next layer. Three violations: sources including each other's headers, headers with the same name, and materials which have been removed."
  },
  {
   "property": "C44",
   "status": "partial",
   "theorems": [
    "Verif.Props.C44_latest_outcome_partial",
    "Verif.Props.C44_repetitions_selected",
    "Verif.Props.C44_repetitions_all",
    "Verif.Props.C44_white_space",
    "Verif.Props.C44_two_tests_in_a_file_violated",
    "Verif.Props.C44_space_violated"
   ],
   "note": "Proved for every history of runs, provided that no two tests share a source file and that paths contain no white space; violated otherwise. Repetitions are recorded as a single run."
  },
  {
   "property": "C45",
   "status": "partial",
   "theorems": [
    "Verif.Props.C45_crash_partial",
    "Verif.Props.C45_crash_violated"
   ],
   "note": "Proved for a crash before writing starts or after the failures have been written; violated in between: the file is truncated before it is rewritten."
  },
  {
   "property": "C46",
   "status": "partial",
   "theorems": [
    "Verif.Props.C46_updated_partial",
    "Verif.Props.C46_identical_partial",
    "Verif.Props.C46_completes_partial",
    "Verif.Props.C46_overrun_violated",
    "Verif.Props.C46_file_over_directory_violated"
   ],
   "note": "Whenever an update completes, the destination matches the source at every depth and only files which differ are replaced (C46_updated_partial); without special files both trees are identical at every path (C46_identical_partial). It completes under a condition on the last names (C46_completes_partial); it never completes if the last entry of the source is unmatched and something in the destination comes after it: undefined behaviour (C46_overrun_violated), and it throws if a file is to replace a directory."
  },
  {
   "property": "C47",
   "status": "partial",
   "theorems": [
    "Verif.Props.C47_total",
    "Verif.Props.C47_round_trip_partial",
    "Verif.Props.C47_dollar_violated"
   ],
   "note": "Reading never runs into undefined behaviour. Writing and reading back gives the same records exactly if no line of a message is a single $; violated otherwise, with a witness. Indices have at most 64 bits."
  },
  {
   "property": "C48",
   "status": "proved",
   "theorems": [
    "Verif.Props.C48_analysis",
    "Verif.Props.C48_instability"
   ],
   "note": "For every linear order of failures (the lexicographic order of outputs is derived from it) and every number of trials and tests. Reading the files and their order by name are the subject of C87."
  },
  {
   "property": "C49",
   "status": "proved",
   "theorems": [
    "Verif.Props.C49_accounting",
    "Verif.Props.C49_bounded"
   ],
   "note": "For every history of balanced checks in each of the three modes; the bound holds for every sequence of events."
  },
  {
   "property": "C50",
   "status": "partial",
   "theorems": [
    "Verif.Props.C50_associative",
    "Verif.Props.C50_sums",
    "Verif.Props.C50_left_neutral_partial",
    "Verif.Props.C50_caught_violated",
    "Verif.Props.C50_no_wrap_partial",
    "Verif.Props.C50_nested_performance_violated"
   ],
   "note": "Associativity, right neutrality and the sums of all counters are proved. Violated: messages of caught exceptions are dropped, so that the empty summary is not neutral on the left; counters wrap below zero if several performance checks are nested in one top-level check."
  },
  {
   "property": "C51",
   "status": "proved",
   "theorems": [
    "Verif.Props.C51_monoid",
    "Verif.Props.C51_chain",
    "Verif.Props.C51_redirect",
    "Verif.Props.C51_preamble"
   ],
   "note": "Joining commands is a monoid with the empty command as unit, a chain of commands is their texts separated by &&; the redirection and the preamble are as specified. Commands are texts; running them is not modelled."
  },
  {
   "property": "C52",
   "status": "proved",
   "theorems": [
    "Verif.Props.C52_variance",
    "Verif.Props.C52_few",
    "Verif.Props.C52_sample",
    "Verif.Props.C52_affine",
    "Verif.Props.C52_nonnegative",
    "Verif.Props.C52_order"
   ],
   "note": "In exact real arithmetic; rounding and integral types are not modelled."
  },
  {
   "property": "C53",
   "status": "partial",
   "theorems": [
    "Verif.Props.C53_common",
    "Verif.Props.C53_reduce_partial",
    "Verif.Props.C53_multiply",
    "Verif.Props.C53_multiply_exists_partial",
    "Verif.Props.C53_divide",
    "Verif.Props.C53_mixed_signs_violated",
    "Verif.Props.C53_zero_violated",
    "Verif.Props.C53_negative_violated"
   ],
   "note": "Proved: reduction, multiplication and division whenever the instantiation is well-formed and the types agree; what the common type of two types is (C53_common). Violated: mixed signedness (ratio<-2,4u>), a zero numerator and negative products are rejected or wrong, each with a witness."
  },
  {
   "property": "C54",
   "status": "partial",
   "theorems": [
    "Verif.Props.C54_contents",
    "Verif.Props.C54_allocators_partial",
    "Verif.Props.C54_polymorphic",
    "Verif.Props.C54_select_violated"
   ],
   "note": "Contents are proved equal for every combination of consistent traits. The allocator is as specified if select_on_container_copy_construction is the identity; violated otherwise, as constructors apply it to the allocator they are given."
  },
  {
   "property": "C55",
   "status": "proved",
   "theorems": [
    "Verif.Props.C55_sort_tests",
    "Verif.Props.C55_executed",
    "Verif.Props.C55_recorded",
    "Verif.Props.C55_suites",
    "Verif.Props.C55_total"
   ],
   "note": "Sorting, execution (serial, and concurrent under every order in which the threads take tests), the single report at the end and the summation of summaries up the tree are proved for every tree of suites. Tests are taken to give the same result whenever they are executed; exceptions from tests, output and files are not modelled here."
  },
  {
   "property": "C56",
   "status": "partial",
   "theorems": [
    "Verif.Props.C56_finds_partial",
    "Verif.Props.C56_only_named",
    "Verif.Props.C56_white_space",
    "Verif.Props.C56_extension",
    "Verif.Props.C56_no_space_violated",
    "Verif.Props.C56_tab_violated",
    "Verif.Props.C56_space_after_hash_violated",
    "Verif.Props.C56_comment_violated",
    "Verif.Props.C56_cutoff_violated"
   ],
   "note": "Proved for every file in which names of directives follow # at once and are followed by a space or line break, and in which no comment starts after the first character of the cut-off on a line; for all files it is proved that only what follows #include is found. In general the property fails: counterexamples are proved for #include without a space or with a tab, # include, comments directly after a directive, and comments after the first character of the cut-off."
  },
  {
   "property": "C57",
   "status": "proved",
   "theorems": [
    "Verif.Props.C57_bits",
    "Verif.Props.C57_boolean_algebra",
    "Verif.Props.C57_flags"
   ],
   "note": "For every width and signedness of the underlying type, the operators act bit by bit in spite of the integral promotions."
  },
  {
   "property": "C58",
   "status": "partial",
   "theorems": [
    "Verif.Props.C58_construct_partial",
    "Verif.Props.C58_reject",
    "Verif.Props.C58_indices",
    "Verif.Props.C58_many_edges_violated",
    "Verif.Props.C58_embedded_violated"
   ],
   "note": "Proved: every index fits in the chosen type, and construction succeeds with the specified elements when the total of the edges fits. Violated: few nodes with more than 255 edges (more than 127 if embedded) can never be constructed."
  },
  {
   "property": "C59",
   "status": "proved",
   "theorems": [
    "Verif.Props.C59_join_embedded",
    "Verif.Props.C59_insert_join",
    "Verif.Props.C59_insert_join_position",
    "Verif.Props.C59_join_then_erase",
    "Verif.Props.C59_join"
   ],
   "note": "All three flavours; both insert_join forms."
  },
  {
   "property": "C60",
   "status": "partial",
   "theorems": [
    "Verif.Props.C60_terminates",
    "Verif.Props.C60_replaces_partial",
    "Verif.Props.C60_unique",
    "Verif.Props.C60_delimiters",
    "Verif.Props.C60_adjacent_violated"
   ],
   "note": "Proved if no character of the pattern is accepted as a left neighbour; otherwise adjacent occurrences are skipped (C60_adjacent_violated)."
  },
  {
   "property": "C61",
   "status": "proved",
   "theorems": [
    "Verif.Props.C61_sort_nodes_directed",
    "Verif.Props.C61_sort_nodes_undirected",
    "Verif.Props.C61_sort_nodes_embedded",
    "Verif.Props.C61_sort_nodes_tree"
   ],
   "note": "Proved for directed, undirected, embedded and tree graphs, for comparators which decide by weight and may break ties as they like, e.g. by index."
  },
  {
   "property": "C62",
   "status": "partial",
   "theorems": [
    "Verif.Props.C62_sequences",
    "Verif.Props.C62_elementary",
    "Verif.Props.C62_lower_bound",
    "Verif.Props.C62_merge_partial",
    "Verif.Props.C62_sort_partial",
    "Verif.Props.C62_sort_unique_partial",
    "Verif.Props.C62_sort_unstable_violated",
    "Verif.Props.C62_merge_unstable_violated",
    "Verif.Props.C62_faithful",
    "Verif.Props.C62_union_single_violated",
    "Verif.Props.C62_flatten_partial",
    "Verif.Props.C62_flatten_violated"
   ],
   "note": "Index sequences, the elementary algorithms, lower_bound and faithful type lists are proved in full. merge and stable_sort give a sorted permutation, and the unique one if distinct types are never equivalent, but they are not stable: proved as violations. The union of a single list keeps its repetitions, and flatten leaves lists of mixed depth as they are: proved as violations. Lists are taken to be instances of a single class template; which partial specialization the compiler selects is part of the trusted base."
  },
  {
   "property": "C63",
   "status": "partial",
   "theorems": [
    "Verif.Props.C63_comparator",
    "Verif.Props.C63_determined",
    "Verif.Props.C63_wellformed_partial",
    "Verif.Props.C63_commutative",
    "Verif.Props.C63_laws",
    "Verif.Props.C63_quantities",
    "Verif.Props.C63_single",
    "Verif.Props.C63_validator",
    "Verif.Props.C63_cancellation_violated",
    "Verif.Props.C63_derived_violated",
    "Verif.Props.C63_same_unit",
    "Verif.Props.C63_displacement_violated"
   ],
   "note": "Proved for base units of which only no_unit_t derives from no_unit_t, with validators which are the identity or those for the half line. Missing because false of the code: a unit of two or more base units cannot be divided by itself (C63_cancellation_violated; C63_wellformed_partial says exactly when an expression is ill-formed), units deriving from no_unit_t break the laws (C63_derived_violated), and the comparison is ambiguous for some displacements and duals (C63_displacement_violated). Displacements in products are not covered beyond the comparison."
  },
  {
   "property": "C64",
   "status": "partial",
   "theorems": [
    "Verif.Props.C64_coordinate_partial",
    "Verif.Props.C64_displacement",
    "Verif.Props.C64_root",
    "Verif.Props.C64_composition_partial",
    "Verif.Props.C64_composite_partial",
    "Verif.Props.C64_validator_partial",
    "Verif.Props.C64_valid_partial",
    "Verif.Props.C64_integer_displacement_violated",
    "Verif.Props.C64_three_violated",
    "Verif.Props.C64_dual_violated",
    "Verif.Props.C64_identity_shift_violated",
    "Verif.Props.C64_whole_line_violated",
    "Verif.Props.C64_negative_violated"
   ],
   "note": "Floating point numbers are elements of a field, so there is no rounding. Proved for chains of any length whose displacements are floating point or zero; differences without that restriction; composites of one or two parts if the conversion is well-formed; validators for positive ratios. Missing because false of the code: integral displacements (C64_integer_displacement_violated), three or more parts (C64_three_violated), denominators (C64_dual_violated), validators (C64_identity_shift_violated, C64_whole_line_violated, C64_negative_violated)."
  },
  {
   "property": "C65",
   "status": "partial",
   "theorems": [
    "Verif.Props.C65_result",
    "Verif.Props.C65_valid_partial",
    "Verif.Props.C65_affine",
    "Verif.Props.C65_scaling",
    "Verif.Props.C65_default_violated",
    "Verif.Props.C65_displacement_first_violated"
   ],
   "note": "Numbers are elements of a field: no rounding, overflow or NaN; division by zero is left out. Missing because false of the code: default constructed objects are not validated (C65_default_violated); adding a point to a displacement, in this order, recurses without end (C65_displacement_first_violated)."
  },
  {
   "property": "C66",
   "status": "partial",
   "theorems": [
    "Verif.Props.C66_logged",
    "Verif.Props.C66_detected",
    "Verif.Props.C66_meaning",
    "Verif.Props.C66_equality",
    "Verif.Props.C66_elements",
    "Verif.Props.C66_sizes",
    "Verif.Props.C66_weaker",
    "Verif.Props.C66_strongest_partial",
    "Verif.Props.C66_strongest_violated",
    "Verif.Props.C66_constraints_partial",
    "Verif.Props.C66_constraints_violated",
    "Verif.Props.C66_minimal_violated",
    "Verif.Props.C66_any",
    "Verif.Props.C66_exception",
    "Verif.Props.C66_comparator"
   ],
   "note": "Types are built from classes, strings, ranges, pairs, tuples, variants, optionals, pointers, smart and weak pointers, functions and time points, and std::any is compared with values of such types; paths are the subject of C67. Checks of values of other different types and customized equivalence are not modelled, nor are variants which are valueless by exception. Missing because false of the code: with_best_available compares what ordinary pointers point to although equality is available and stronger (C66_strongest_violated); the tests of pairs, tuples, variants, optionals and pointers and simple equality are underconstrained (C66_constraints_violated); where minimal reporting is permitted this holds neither for the elements of ranges nor for those of pairs and the like (C66_minimal_violated)."
  },
  {
   "property": "C67",
   "status": "partial",
   "theorems": [
    "Verif.Props.C67_equivalence",
    "Verif.Props.C67_weak",
    "Verif.Props.C67_bespoke",
    "Verif.Props.C67_completes",
    "Verif.Props.C67_reflexive",
    "Verif.Props.C67_exact",
    "Verif.Props.C67_update",
    "Verif.Props.C67_names_violated",
    "Verif.Props.C67_empty_violated",
    "Verif.Props.C67_missing_violated"
   ],
   "note": "Symbolic links, types of files other than regular files and directories, files which cannot be read, malformed patterns and changes during a comparison are not modelled; what patterns do is a parameter. Missing because false of the code: weak equivalence depends on the names of the entries of directories (C67_names_violated); the check of an empty path passes for every prediction which does not exist (C67_empty_violated), while with the roles exchanged there is an exception (C67_missing_violated)."
  },
  {
   "property": "C68",
   "status": "partial",
   "theorems": [
    "Verif.Props.C68_regular",
    "Verif.Props.C68_regular_equivalents",
    "Verif.Props.C68_move_only",
    "Verif.Props.C68_passes",
    "Verif.Props.C68_passes_move_only",
    "Verif.Props.C68_defects",
    "Verif.Props.C68_moved",
    "Verif.Props.C68_equality_violated",
    "Verif.Props.C68_order_violated",
    "Verif.Props.C68_stops",
    "Verif.Props.C68_stops_move_only"
   ],
   "note": "Exceptions thrown by operations are not modelled; types with allocators and comparisons which have effects are the subject of C86; objects of the type are compared by operator==. Missing because false of the code: if operator== always says that objects are equal then nothing is detected, even if operator!= tells the truth (C68_equality_violated); inconsistent operators for the order go undetected in some cases (C68_order_violated)."
  },
  {
   "property": "C69",
   "status": "proved",
   "theorems": [
    "Verif.Props.C69_sort_edges",
    "Verif.Props.C69_stable_sort_edges",
    "Verif.Props.C69_different_nodes",
    "Verif.Props.C69_swap_edges"
   ],
   "note": "std::ranges::sort is a parameter which is assumed to sort by a strict weak order (Sorts); the stable sort is the modelled one (C02)."
  },
  {
   "property": "C70",
   "status": "partial",
   "theorems": [
    "Verif.Props.C70_prepared_partial",
    "Verif.Props.C70_reset_partial",
    "Verif.Props.C70_originals",
    "Verif.Props.C70_nested_violated"
   ],
   "note": "Symbolic links and failures of the file system are not modelled. Missing because false of the code: if the materials of one test are within those of another which has predictions, one of them does not start with its materials (C70_nested_violated). It is assumed that there is a directory, or nothing, where materials are looked for, and that no file is where a directory is needed."
  },
  {
   "property": "C71",
   "status": "partial",
   "theorems": [
    "Verif.Props.C71_selected",
    "Verif.Props.C71_unique_partial",
    "Verif.Props.C71_sound_partial",
    "Verif.Props.C71_absolute",
    "Verif.Props.C71_exact",
    "Verif.Props.C71_other_file_violated",
    "Verif.Props.C71_ambiguous_violated"
   ],
   "note": "Paths are lists of names in normal form. Missing because false of the code: paths whose first name occurs in the path of the repository may select other tests (C71_other_file_violated), and of several files to which a path may refer one is chosen, in the order of iteration, so that a test may be missed even by pruning (C71_ambiguous_violated)."
  },
  {
   "property": "C72",
   "status": "partial",
   "theorems": [
    "Verif.Props.C72_place",
    "Verif.Props.C72_distinct",
    "Verif.Props.C72_discriminators",
    "Verif.Props.C72_summaries",
    "Verif.Props.C72_diagnostics_partial",
    "Verif.Props.C72_diagnostics_files",
    "Verif.Props.C72_diagnostics_violated"
   ],
   "note": "Tests are executed one after the other. Missing because false of the code: tests in the same suite whose sources have the same name share the file for diagnostics, and only the last output is kept (C72_diagnostics_violated)."
  },
  {
   "property": "C73",
   "status": "partial",
   "theorems": [
    "Verif.Props.C73_meaning",
    "Verif.Props.C73_consistent",
    "Verif.Props.C73_help",
    "Verif.Props.C73_defined_partial",
    "Verif.Props.C73_numbers",
    "Verif.Props.C73_accepted",
    "Verif.Props.C73_defined_violated",
    "Verif.Props.C73_refused_violated",
    "Verif.Props.C73_recover_violated"
   ],
   "note": "What is written to the stream is not modelled. Missing because false of the code: concatenated aliases invoke options below `prune` without arguments, which is undefined (C73_defined_violated); a refused command line may have removed the recovery file (C73_refused_violated); `recover` throws if there is no output directory (C73_recover_violated)."
  },
  {
   "property": "C74",
   "status": "partial",
   "theorems": [
    "Verif.Props.C74_order",
    "Verif.Props.C74_order_violated"
   ],
   "note": "Missing because false of the code: the last one of `--serial` and `--thread-pool` counts (C74_order_violated), and similarly for several occurrences of `prune` or `locate-instabilities`. Command lines which create tests or projects are left out."
  },
  {
   "property": "C75",
   "status": "partial",
   "theorems": [
    "Verif.Props.C75_sandboxes_partial",
    "Verif.Props.C75_pruning",
    "Verif.Props.C75_spaces_violated",
    "Verif.Props.C75_recovery_violated"
   ],
   "note": "Missing because false of the code: names with blanks break the command (C75_spaces_violated), and a recovery file which was asked for is not written (C75_recovery_violated). How a shell splits a command into words is modelled for plain text only."
  },
  {
   "property": "C76",
   "status": "partial",
   "theorems": [
    "Verif.Props.C76_created_partial",
    "Verif.Props.C76_several_violated",
    "Verif.Props.C76_none_violated"
   ],
   "note": "Missing because false of the code: of several tests below one `create` only the last is finalized (C76_several_violated), and with none the previous test is finalized again (C76_none_violated). What finalization writes is not part of this."
  },
  {
   "property": "C77",
   "status": "partial",
   "theorems": [
    "Verif.Props.C77_include_partial",
    "Verif.Props.C77_none_partial",
    "Verif.Props.C77_block",
    "Verif.Props.C77_between_violated",
    "Verif.Props.C77_last_violated",
    "Verif.Props.C77_glued_violated",
    "Verif.Props.C77_arrow_violated"
   ],
   "note": "Proved for files whose directives form one block which is not at the very end. Missing because false of the code: what is between two directives is lost (C77_between_violated), as is a directive without a newline (C77_last_violated); without directives the new one is appended to the last line (C77_glued_violated); with an arrow in a comment sorting is undefined (C77_arrow_violated)."
  },
  {
   "property": "C78",
   "status": "partial",
   "theorems": [
    "Verif.Props.C78_suite_partial",
    "Verif.Props.C78_twice_partial",
    "Verif.Props.C78_new",
    "Verif.Props.C78_throws",
    "Verif.Props.C78_substring_violated",
    "Verif.Props.C78_again_violated",
    "Verif.Props.C78_other_violated"
   ],
   "note": "Proved for tests which are there, followed by tests whose text is not part of a line of the suite. Missing because false of the code: a test whose text is part of another one is not added (C78_substring_violated), a test may be added again (C78_again_violated), or to another suite (C78_other_violated)."
  },
  {
   "property": "C79",
   "status": "partial",
   "theorems": [
    "Verif.Props.C79_cmake_partial",
    "Verif.Props.C79_missing",
    "Verif.Props.C79_twice_violated",
    "Verif.Props.C79_blank_violated"
   ],
   "note": "Proved for lists with each entry on a line of its own. Missing because false of the code: a file may be added twice (C79_twice_violated), and a parenthesis on a line of its own gives an empty entry (C79_blank_violated)."
  },
  {
   "property": "C80",
   "status": "partial",
   "theorems": [
    "Verif.Props.C80_parameters_partial",
    "Verif.Props.C80_roundtrip_partial",
    "Verif.Props.C80_text",
    "Verif.Props.C80_names_partial",
    "Verif.Props.C80_plain",
    "Verif.Props.C80_refused",
    "Verif.Props.C80_words_violated",
    "Verif.Props.C80_commas_violated",
    "Verif.Props.C80_comma_after_violated"
   ],
   "note": "Proved for parameters whose kind is one word, possibly with an ellipsis. Missing because false of the code: a kind in two words (C80_words_violated), a concept with two arguments (C80_commas_violated); a comma after the parameters is undefined behaviour (C80_comma_after_violated)."
  },
  {
   "property": "C81",
   "status": "partial",
   "theorems": [
    "Verif.Props.C81_value_partial",
    "Verif.Props.C81_arguments_partial",
    "Verif.Props.C81_kind",
    "Verif.Props.C81_namespace",
    "Verif.Props.C81_global",
    "Verif.Props.C81_unsigned_violated",
    "Verif.Props.C81_fixed_violated",
    "Verif.Props.C81_empty_violated"
   ],
   "note": "Passing by value is characterized for all types. Missing because false of the code: unsigned (C81_unsigned_violated) and integers of fixed width (C81_fixed_violated) are passed by reference; an empty type leaves a comma behind (C81_empty_violated)."
  },
  {
   "property": "C82",
   "status": "proved",
   "theorems": [
    "Verif.Props.C82_once",
    "Verif.Props.C82_transitions",
    "Verif.Props.C82_sound",
    "Verif.Props.C82_exception",
    "Verif.Props.C82_message"
   ],
   "note": "For all graphs of states. Object generators always give the same object, and transitions have no effects other than throwing."
  },
  {
   "property": "C83",
   "status": "partial",
   "theorems": [
    "Verif.Props.C83_kind_partial",
    "Verif.Props.C83_sound",
    "Verif.Props.C83_rule",
    "Verif.Props.C83_no_space",
    "Verif.Props.C83_dual",
    "Verif.Props.C83_involutive",
    "Verif.Props.C83_origin",
    "Verif.Props.C83_half_line",
    "Verif.Props.C83_concepts",
    "Verif.Props.C83_modules_violated",
    "Verif.Props.C83_dual_module_violated",
    "Verif.Props.C83_affine_convex_violated",
    "Verif.Props.C83_vector_affine_violated",
    "Verif.Props.C83_involutive_violated",
    "Verif.Props.C83_origin_violated"
   ],
   "note": "Proved with the library's rule for the kind of a product, which never claims too much structure (C83_sound); C83_rule says when it is the right one. Missing because false of the code: affine times convex is no space (C83_affine_convex_violated), vector times affine is only convex (C83_vector_affine_violated), products and duals of free modules over rings which are not fields (C83_modules_violated, C83_dual_module_violated), explicit duals of duals (C83_involutive_violated), origins of products (C83_origin_violated)."
  },
  {
   "property": "C84",
   "status": "proved",
   "theorems": [
    "Verif.Props.C84_arguments",
    "Verif.Props.C84_verdict",
    "Verif.Props.C84_logged",
    "Verif.Props.C84_more_attempts",
    "Verif.Props.C84_units",
    "Verif.Props.C84_wider",
    "Verif.Props.C84_steady",
    "Verif.Props.C84_no_speed_up"
   ],
   "note": "With real numbers in place of floating-point numbers, and for tasks which do not throw. The timings and the order of the tasks are arbitrary functions of what has been run before."
  },
  {
   "property": "C85",
   "status": "partial",
   "theorems": [
    "Verif.Props.C85_exactly",
    "Verif.Props.C85_other_timings_partial",
    "Verif.Props.C85_nothing_else_partial",
    "Verif.Props.C85_lines",
    "Verif.Props.C85_later_lines_violated",
    "Verif.Props.C85_exponents_violated"
   ],
   "note": "C85_exactly says line by line what is accepted. Replaced if only timings without negative exponents differ (C85_other_timings_partial); replaced only if the same up to timings, provided that no line with a timing is the same (C85_nothing_else_partial). Missing because false of the code: lines after an equal timing (C85_later_lines_violated) and negative exponents (C85_exponents_violated)."
  },
  {
   "property": "C86",
   "status": "partial",
   "theorems": [
    "Verif.Props.C86_regular",
    "Verif.Props.C86_move_only",
    "Verif.Props.C86_predictions",
    "Verif.Props.C86_predictions_move_only",
    "Verif.Props.C86_defaults",
    "Verif.Props.C86_stops",
    "Verif.Props.C86_stops_move_only",
    "Verif.Props.C86_comparisons",
    "Verif.Props.C86_serialization",
    "Verif.Props.C86_init",
    "Verif.Props.C86_shared_violated",
    "Verif.Props.C86_levels",
    "Verif.Props.C86_all_levels",
    "Verif.Props.C86_shift",
    "Verif.Props.C86_shift_pointers",
    "Verif.Props.C86_levels_violated"
   ],
   "note": "Exact for all types (C86_regular, C86_move_only); nothing but comparisons is called if what is demanded of the objects at first does not hold (C86_stops, C86_stops_move_only); right predictions are accepted and wrong ones found if the two objects have different allocators (C86_predictions, C86_predictions_move_only, C86_defaults). Missing because false of the code: objects which share an allocator (C86_shared_violated), and too few predictions for a scoped allocator, which is undefined behaviour (C86_levels_violated). Not modelled: factory functions for move-only types, and allocators which are always equal in C86_predictions."
  },
  {
   "property": "C87",
   "status": "partial",
   "theorems": [
    "Verif.Props.C87_instabilities_partial",
    "Verif.Props.C87_shown",
    "Verif.Props.C87_same_file_violated",
    "Verif.Props.C87_crash_violated",
    "Verif.Props.C87_dollar_violated"
   ],
   "note": "Proved from the executions to the reports (C87_instabilities_partial, C87_shown). Missing because false of the code: source files with the same name in different directories (C87_same_file_violated), repetitions which end prematurely in sandbox mode (C87_crash_violated), messages in which a line is a dollar sign (C87_dollar_violated). Names of tests are taken as single elements of paths, and failures of the file system are not modelled."
  },
  {
   "property": "C88",
   "status": "partial",
   "theorems": [
    "Verif.Props.C88_dimension",
    "Verif.Props.C88_covariant_partial",
    "Verif.Props.C88_compare_partial",
    "Verif.Props.C88_half_line",
    "Verif.Props.C88_negative",
    "Verif.Props.C88_difference",
    "Verif.Props.C88_origin_violated",
    "Verif.Props.C88_derived_violated"
   ],
   "note": "Proved for expressions of any size over an ordered field, in one dimension, for the validators identity and half line (C88_dimension, C88_covariant_partial, C88_compare_partial, C88_half_line). Missing because false of the code: points of affine spaces with different origins are subtracted, compared and converted without regard to the origins (C88_origin_violated); units which derive from no_unit_t disappear from products (C88_derived_violated). Not modelled: more dimensions, other bases, custom validators, rounding, division by zero. C88_negative and C88_difference say exactly when there are negatives and differences."
  },
  {
   "property": "C89",
   "status": "partial",
   "theorems": [
    "Verif.Props.C89_rejected",
    "Verif.Props.C89_created_partial",
    "Verif.Props.C89_names",
    "Verif.Props.C89_texts_partial",
    "Verif.Props.C89_inside_violated",
    "Verif.Props.C89_dependency_violated",
    "Verif.Props.C89_identifier_violated",
    "Verif.Props.C89_repeated_violated",
    "Verif.Props.C89_owner_violated"
   ],
   "note": "Proved: what there is at every path after the creation of a project, for any template and any contents of sequoia (C89_created_partial); the texts of the main file and the files for CMake made from the template of sequoia (C89_texts_partial, C89_names); projects which are rejected (C89_rejected). Missing because false of the code: a project inside a directory which is copied (C89_inside_violated, for every such project), names of projects and owners which contain what is replaced (C89_repeated_violated, C89_owner_violated), names with dashes (C89_identifier_violated), and what has been built in a dependency (C89_dependency_violated). A file .keep in the directory of sequoia is excluded. What git and builds do is a parameter; symbolic links, permissions and limits of path lengths are not modelled."
  },
  {
   "property": "C90",
   "status": "partial",
   "theorems": [
    "Verif.Props.C90_walk",
    "Verif.Props.C90_post",
    "Verif.Props.C90_order",
    "Verif.Props.C90_loop",
    "Verif.Props.C90_weights",
    "Verif.Props.C90_insert",
    "Verif.Props.C90_erase",
    "Verif.Props.C90_equal_violated",
    "Verif.Props.C90_missing_violated",
    "Verif.Props.C90_missing_index_partial",
    "Verif.Props.C90_missing_bucketed"
   ],
   "note": "Proved: moves, distances, order and dereferencing (C90_walk, C90_order), the values of it++ and it-- (C90_post), loops over elements and over weights of edges (C90_loop, C90_weights), insertion and erasure (C90_insert, C90_erase), missing partitions of bucketed storage (C90_missing_bucketed) and, in part, of contiguous storage (C90_missing_index_partial). Missing because false of the code: equal iterators of contiguous storage may belong to different partitions (C90_equal_violated), and the iterators of a missing partition of contiguous storage delimit everything (C90_missing_violated)."
  },
  {
   "property": "C91",
   "status": "partial",
   "theorems": [
    "Verif.Props.C91_text",
    "Verif.Props.C91_readable",
    "Verif.Props.C91_visible_partial",
    "Verif.Props.C91_hidden_violated",
    "Verif.Props.C91_units",
    "Verif.Props.C91_nanoseconds",
    "Verif.Props.C91_rounding_violated",
    "Verif.Props.C91_pad",
    "Verif.Props.C91_pad_empty_violated"
   ],
   "note": "Proved: the text (C91_text), that it can be read back (C91_readable), units of time (C91_units), padding (C91_pad), and that failures are shown if checks of performance are not mixed with others in one top-level check (C91_visible_partial). Missing because false of the code: failures of a top-level check which also contains a check of performance are left out (C91_hidden_violated), 999.999us is shown as 1e+03us (C91_rounding_violated), padding nothing is undefined (C91_pad_empty_violated)."
  },
  {
   "property": "C92",
   "status": "partial",
   "theorems": [
    "Verif.Props.C92_report",
    "Verif.Props.C92_history",
    "Verif.Props.C92_description",
    "Verif.Props.C92_end_block",
    "Verif.Props.C92_verdict",
    "Verif.Props.C92_counters",
    "Verif.Props.C92_critical_violated",
    "Verif.Props.C92_label_violated"
   ],
   "note": "Proved: what one check adds (C92_report), whole histories (C92_history), first and last message of a check (C92_description), how messages are closed (C92_end_block), the message about a check which did not fail (C92_verdict), agreement with the counters of C49 (C92_counters). Missing because false of the code: if failures are expected, a critical failure after an ordinary one is reported without the description (C92_critical_violated); a false-positive check which passes is recorded as False Negative Failure (C92_label_violated). The recovery files are not modelled here."
  },
  {
   "property": "C93",
   "status": "partial",
   "theorems": [
    "Verif.Props.C93_character",
    "Verif.Props.C93_wide_violated",
    "Verif.Props.C93_prediction",
    "Verif.Props.C93_characters",
    "Verif.Props.C93_pointers",
    "Verif.Props.C93_path_within",
    "Verif.Props.C93_path_relative",
    "Verif.Props.C93_path_foreign_violated",
    "Verif.Props.C93_report_line",
    "Verif.Props.C93_exception",
    "Verif.Props.C93_exception_violated"
   ],
   "note": "Proved: characters (C93_character, C93_characters), predictions (C93_prediction), pointers (C93_pointers), paths (C93_path_within, C93_path_relative), locations (C93_report_line), exceptions (C93_exception). Missing because false of the code: wide characters are truncated (C93_wide_violated), files outside the repository are reported as if inside (C93_path_foreign_violated), a check without description is forgotten (C93_exception_violated)."
  },
  {
   "property": "C94",
   "status": "partial",
   "theorems": [
    "Verif.Props.C94_directed",
    "Verif.Props.C94_undirected",
    "Verif.Props.C94_embedded",
    "Verif.Props.C94_default",
    "Verif.Props.C94_static",
    "Verif.Props.C94_heterogeneous",
    "Verif.Props.C94_history_directed",
    "Verif.Props.C94_history_undirected",
    "Verif.Props.C94_history_embedded",
    "Verif.Props.C94_allocators_violated"
   ],
   "note": "Proved: construction of each kind of graph (C94_directed, C94_undirected, C94_embedded, C94_default, C94_static, C94_heterogeneous) and all histories (C94_history_directed, C94_history_undirected, C94_history_embedded). Missing because false of the code: the constructors with allocators accept lists of different lengths (C94_allocators_violated)."
  },
  {
   "property": "C95",
   "status": "partial",
   "theorems": [
    "Verif.Props.C95_root_partial",
    "Verif.Props.C95_found",
    "Verif.Props.C95_root_violated",
    "Verif.Props.C95_apart",
    "Verif.Props.C95_output",
    "Verif.Props.C95_project",
    "Verif.Props.C95_records",
    "Verif.Props.C95_records_violated"
   ],
   "note": "Proved: what is found and when (C95_root_partial, C95_found), the directories (C95_apart, C95_output), the files named by the user (C95_project), and that records of builds in different directories, of different kinds or of different repetitions are different files (C95_records). Missing because false of the code: a project inside of a directory called build is not found (C95_root_violated), and two executables in the same directory share their records (C95_records_violated)."
  },
  {
   "property": "C96",
   "status": "partial",
   "theorems": [
    "Verif.Props.C96_functions_left_out",
    "Verif.Props.C96_results",
    "Verif.Props.C96_serial",
    "Verif.Props.C96_models_agree",
    "Verif.Props.C96_pool",
    "Verif.Props.C96_state_violated"
   ],
   "note": "Proved: leaving functions out (C96_functions_left_out), the calls and states with serial<void> (C96_serial), the results of a breadth first search (C96_results), the agreement of all models for functions without state (C96_models_agree), and the futures of a pool in every execution (C96_pool). Missing because false of the code: with serial<R> and with asynchronous the functions are copied for each call, and their state is lost (C96_state_violated)."
  },
  {
   "property": "C97",
   "status": "partial",
   "theorems": [
    "Verif.Props.C97_visit",
    "Verif.Props.C97_visit_backward",
    "Verif.Props.C97_forest_partial",
    "Verif.Props.C97_root_violated",
    "Verif.Props.C97_symmetric_violated",
    "Verif.Props.C97_adaptors",
    "Verif.Props.C97_mutate"
   ],
   "note": "Proved: the visit of forward trees (C97_visit), the way up in backward trees (C97_visit_backward), forests of trees with root 0 (C97_forest_partial), adaptors and weights (C97_adaptors, C97_mutate). Missing because false of the code: once the nodes of a tree have been swapped, a forest refers to the wrong node (C97_root_violated); the forest of a node of a symmetric tree contains its parent, and the visit does not terminate (C97_symmetric_violated)."
  },
  {
   "property": "C98",
   "status": "partial",
   "theorems": [
    "Verif.Props.C98_clang_partial",
    "Verif.Props.C98_gcc_partial",
    "Verif.Props.C98_msvc_partial",
    "Verif.Props.C98_digits_violated",
    "Verif.Props.C98_enumerators_violated",
    "Verif.Props.C98_long_violated",
    "Verif.Props.C98_spans_violated",
    "Verif.Props.C98_negative_violated",
    "Verif.Props.C98_span_partial",
    "Verif.Props.C98_special_partial"
   ],
   "note": "Proved for names of any depth and width, with at most two enumerators, no digits in the names of inner templates, and no keyword within a name (C98_clang_partial, C98_gcc_partial, C98_msvc_partial). Missing because false of the code: suffixes stay if there is a digit in the name of an inner template (C98_digits_violated), the third enumerator may stay (C98_enumerators_violated) and so do negative ones (C98_negative_violated), names which contain `long` are changed (C98_long_violated), only the first span is treated (C98_spans_violated). Missing: pointers, references, functions, anonymous namespaces and floating point numbers as template arguments. What the compilers give as names is an assumption."
  },
  {
   "property": "C99",
   "status": "partial",
   "theorems": [
    "Verif.Props.C99_kept",
    "Verif.Props.C99_write",
    "Verif.Props.C99_new_partial",
    "Verif.Props.C99_created_partial",
    "Verif.Props.C99_missing",
    "Verif.Props.C99_again_partial",
    "Verif.Props.C99_marks",
    "Verif.Props.C99_stubs",
    "Verif.Props.C99_allocation",
    "Verif.Props.C99_defined",
    "Verif.Props.C99_semantics",
    "Verif.Props.C99_behavioural",
    "Verif.Props.C99_outside_violated",
    "Verif.Props.C99_interrupted_violated",
    "Verif.Props.C99_retry_violated",
    "Verif.Props.C99_truncated_violated",
    "Verif.Props.C99_sample_class",
    "Verif.Props.C99_sample_semantics",
    "Verif.Props.C99_sample_equivalence"
   ],
   "note": "Proved without restriction: what has been there stays, but for the files which are edited (C99_kept); nothing is done without a source (C99_missing); no marks are left (C99_marks); how a file is written (C99_write); which requests are refused, and that texts are defined (C99_defined); texts for templates with all the marks there are (C99_sample_class, C99_sample_semantics). Proved for sources in the directory of the project: where new files are (C99_new_partial), what is in them and which edits are made (C99_created_partial), and that creating them again changes nothing (C99_again_partial). Missing because false of the code: files are put outside the directory of the tests if the source is next to that of the project (C99_outside_violated); if the process is killed or an exception is thrown after a file has been copied, then it cannot be tried again (C99_interrupted_violated, C99_retry_violated); files which are edited are empty for a moment (C99_truncated_violated). The edits themselves are the subject of C77 to C79."
  },
  {
   "property": "C100",
   "status": "proved",
   "theorems": [
    "Verif.Props.C100_report",
    "Verif.Props.C100_listed",
    "Verif.Props.C100_found",
    "Verif.Props.C100_all"
   ],
   "note": "C100_report for the reports of all repetitions; C100_listed and C100_all for each node and each test appearing once; C100_found for sums, messages and names. How a summary is turned into lines is C91, the execution of the tests C55. Times are parameters."
  },
  {
   "property": "C101",
   "status": "partial",
   "theorems": [
    "Verif.Props.C101_duplicates",
    "Verif.Props.C101_tests",
    "Verif.Props.C101_execute",
    "Verif.Props.C101_unmatched",
    "Verif.Props.C101_never_silent",
    "Verif.Props.C101_nested_duplicates_violated"
   ],
   "note": "C101_tests for the tests which the runner has, C101_execute for all that is printed, together with C100 for the reports; C101_unmatched for which selections are named, exactly and without the assumptions of C42_reports_partial; C101_never_silent from the command line on; C101_duplicates for suites of tests which are added directly. Missing because false of the code: duplicates are not looked for in suites within suites (C101_nested_duplicates_violated). Of two selections which match the same only the first is taken to be found (C42_selected_twice_violated). Comparison of paths is a parameter (C71) and taken not to throw; coordination of sandboxes is C75."
  },
  {
   "property": "C102",
   "status": "partial",
   "theorems": [
    "Verif.Props.C102_safe_partial",
    "Verif.Props.C102_same_partial",
    "Verif.Props.C102_possible",
    "Verif.Props.C102_chosen_violated",
    "Verif.Props.C102_meanwhile_violated",
    "Verif.Props.C102_executable_violated"
   ],
   "note": "C102_safe_partial and C102_same_partial by an invariant of histories; C102_possible says that a selection exists once all tests have been run. Missing because false of the code: after a run of tests which the user chose, tests which passed before are taken to have passed at the time of that run (C102_chosen_violated); changes made during a pruned run are overlooked (C102_meanwhile_violated); a run of all tests with an executable which is out of date (C102_executable_violated). Assumed of changes: no file is removed, nothing is removed from the materials (see C43 for what happens otherwise), and whatever is changed has a time stamp after the run before it. Tests registered with the runner without any change to a file are not considered."
  },
  {
   "property": "C103",
   "status": "partial",
   "theorems": [
    "Verif.Props.C103_help",
    "Verif.Props.C103_complete",
    "Verif.Props.C103_something",
    "Verif.Props.C103_asked",
    "Verif.Props.C103_messages",
    "Verif.Props.C103_missing",
    "Verif.Props.C103_unrecognized",
    "Verif.Props.C103_comma_violated",
    "Verif.Props.C103_after_violated",
    "Verif.Props.C103_runner"
   ],
   "note": "C103_help for the text, C103_complete for the reading of it, C103_something, which justifies that the parser recognizes by the text that help has been asked for, C103_asked, C103_messages, C103_missing and C103_unrecognized. Missing because false of the code: names which end with a comma (C103_comma_violated), and that nothing after help matters (C103_after_violated). Names are taken to be single lines; for C103_complete names and aliases are words and descriptions of parameters have no commas. C103_runner is about the options of the runner of tests: the help is that in the materials of the project's own end to end test."
  },
  {
   "property": "C104",
   "status": "partial",
   "theorems": [
    "Verif.Props.C104_files",
    "Verif.Props.C104_includes_partial",
    "Verif.Props.C104_header_next",
    "Verif.Props.C104_selected_partial",
    "Verif.Props.C104_external",
    "Verif.Props.C104_bare_violated",
    "Verif.Props.C104_first_violated",
    "Verif.Props.C104_dots_violated",
    "Verif.Props.C104_extension_violated",
    "Verif.Props.C104_between_violated",
    "Verif.Props.C104_external_violated"
   ],
   "note": "C104_selected_partial goes all the way from texts to the selection; C104_files, C104_includes_partial, C104_header_next and C104_external are the steps. Missing because false of the code: directives which are not clear, i.e. with names without directories for files elsewhere (C104_bare_violated), with several files for the same name (C104_first_violated), with dots (C104_dots_violated), or with other extensions (C104_extension_violated); names between those of the source file and the header (C104_between_violated); external files with the name of a file of the project (C104_external_violated). Files have to be in layers, as for C43."
  },
  {
   "property": "C105",
   "status": "partial",
   "theorems": [
    "Verif.Props.C105_assign_partial",
    "Verif.Props.C105_assign_violated",
    "Verif.Props.C105_self_assign",
    "Verif.Props.C105_swap_clear",
    "Verif.Props.C105_swap_nodes_partial",
    "Verif.Props.C105_swap_nodes_violated",
    "Verif.Props.C105_erase_node_partial",
    "Verif.Props.C105_erase_node_violated",
    "Verif.Props.C105_tree_no_failure",
    "Verif.Props.C105_tree_partial",
    "Verif.Props.C105_tree_violated"
   ],
   "note": "C105_assign_partial, C105_self_assign, C105_swap_clear, C105_swap_nodes_partial, C105_erase_node_partial, C105_tree_no_failure and C105_tree_partial. Missing because false of the code: a failure while node weights are assigned terminates the program (C105_assign_violated); swap_nodes of a graph which is not directed leaves the weights swapped when memory runs out (C105_swap_nodes_violated); erase_node leaves more weights than nodes when the move of a weight throws (C105_erase_node_violated); a tree is left with a node without its edges when one of these cannot be created (C105_tree_violated). Storage is bucketed, weights of edges are not shared, and weights of nodes not of an empty type."
  },
  {
   "property": "C106",
   "status": "partial",
   "theorems": [
    "Verif.Props.C106_unsigned",
    "Verif.Props.C106_unsigned_addition",
    "Verif.Props.C106_unsigned_narrow",
    "Verif.Props.C106_unsigned_short_violated",
    "Verif.Props.C106_signed_narrow",
    "Verif.Props.C106_signed_partial",
    "Verif.Props.C106_signed_violated",
    "Verif.Props.C106_bool_multiplication",
    "Verif.Props.C106_bool_violated",
    "Verif.Props.C106_coordinates_group",
    "Verif.Props.C106_coordinates_module",
    "Verif.Props.C106_half_line_partial",
    "Verif.Props.C106_half_line_violated"
   ],
   "note": "C106_unsigned, C106_unsigned_addition, C106_unsigned_narrow, C106_signed_narrow, C106_signed_partial, C106_bool_multiplication, C106_coordinates_group, C106_coordinates_module and C106_half_line_partial. Missing because false of the code: unsigned short is taken for a ring although products of its values may be undefined (C106_unsigned_short_violated); bool is said to be a field but has no addition which can be undone (C106_bool_violated); signed types overflow (C106_signed_violated, as documented); the half line over unsigned types wraps around (C106_half_line_violated). Floating point is not modelled."
  },
  {
   "property": "C107",
   "status": "partial",
   "theorems": [
    "Verif.Props.C107_total",
    "Verif.Props.C107_difference",
    "Verif.Props.C107_excerpts",
    "Verif.Props.C107_context",
    "Verif.Props.C107_genuine_partial",
    "Verif.Props.C107_differ_partial",
    "Verif.Props.C107_differ_violated",
    "Verif.Props.C107_full",
    "Verif.Props.C107_full_partial",
    "Verif.Props.C107_full_violated",
    "Verif.Props.C107_line_partial",
    "Verif.Props.C107_line_violated",
    "Verif.Props.C107_lengths_partial",
    "Verif.Props.C107_lengths_violated"
   ],
   "note": "C107_total, C107_difference, C107_excerpts, C107_context, C107_genuine_partial, C107_differ_partial, C107_full, C107_full_partial, C107_line_partial and C107_lengths_partial. Missing because false of the code: if the difference is a line break, then both excerpts may be the same (C107_differ_violated); excerpts may go beyond a line (C107_line_violated) and dots may be shown though nothing is left out (C107_full_violated); if advice is given for characters, then there is nothing of all this for strings of different lengths (C107_lengths_violated). Characters other than char are not modelled."
  },
  {
   "property": "C108",
   "status": "partial",
   "theorems": [
    "Verif.Props.C108_narrow",
    "Verif.Props.C108_wide_partial",
    "Verif.Props.C108_tolerance_violated",
    "Verif.Props.C108_message",
    "Verif.Props.C108_advice",
    "Verif.Props.C108_advice_partial",
    "Verif.Props.C108_advice_violated",
    "Verif.Props.C108_ignored_violated"
   ],
   "note": "C108_narrow, C108_wide_partial, C108_message, C108_advice and C108_advice_partial. Missing because false of the code: differences too large for the type (C108_tolerance_violated), signed values given to advisors with unsigned parameters (C108_advice_violated), advisors which are not asked though nothing would be lost (C108_ignored_violated). Floating point numbers, and advisors with several overloads, are not modelled."
  },
  {
   "property": "C109",
   "status": "partial",
   "theorems": [
    "Verif.Props.C109_directed",
    "Verif.Props.C109_embedded",
    "Verif.Props.C109_undirected_partial",
    "Verif.Props.C109_undirected_violated",
    "Verif.Props.C109_read",
    "Verif.Props.C109_checks",
    "Verif.Props.C109_max_violated"
   ],
   "note": "C109_directed, C109_embedded, C109_undirected_partial, C109_read and C109_checks. Missing because false of the code: for undirected graphs positions refer to the sorted edges and not to the listing (C109_undirected_violated); what is called the maximum of an index of an edge or a target is one more (C109_max_violated)."
  },
  {
   "property": "C110",
   "status": "partial",
   "theorems": [
    "Verif.Props.C110_pool",
    "Verif.Props.C110_always",
    "Verif.Props.C110_ends",
    "Verif.Props.C110_async_partial",
    "Verif.Props.C110_async_progress",
    "Verif.Props.C110_async_violated",
    "Verif.Props.C110_accelerate",
    "Verif.Props.C110_accelerate_ends",
    "Verif.Props.C110_in_order_partial",
    "Verif.Props.C110_in_order_violated"
   ],
   "note": "C110_pool, C110_always, C110_ends, C110_accelerate and C110_accelerate_ends for pools; C110_async_partial and C110_async_progress for asynchronous; C110_in_order_partial for execution in order. Missing because false of the code: a function given to asynchronous whose answer is not asked for may be dropped (C110_async_violated); items behind one which throws are dealt with by a pool, but not in order (C110_in_order_violated). A function and the item it acts on belong together; access to shared data by functions is not modelled."
  },
  {
   "property": "C111",
   "status": "partial",
   "theorems": [
    "Verif.Props.C111_set_meta",
    "Verif.Props.C111_set_meta_embedded",
    "Verif.Props.C111_mutate_meta",
    "Verif.Props.C111_mutate_meta_embedded",
    "Verif.Props.C111_reverse",
    "Verif.Props.C111_link_weight",
    "Verif.Props.C111_loop_weight",
    "Verif.Props.C111_mutate_shared",
    "Verif.Props.C111_loop_violated",
    "Verif.Props.C111_mutate_shared_violated"
   ],
   "note": "C111_set_meta, C111_set_meta_embedded, C111_mutate_meta, C111_mutate_meta_embedded, C111_reverse, C111_link_weight for links, C111_loop_weight for what happens to loops, C111_mutate_shared for functions whose copies share a state. Missing because false of the code: the weight of a loop whose halves have different meta data cannot be set (C111_loop_violated); a function with a state leaves different weights (C111_mutate_shared_violated)."
  },
  {
   "property": "C112",
   "status": "partial",
   "theorems": [
    "Verif.Props.C112_chain",
    "Verif.Props.C112_understood",
    "Verif.Props.C112_stage",
    "Verif.Props.C112_words",
    "Verif.Props.C112_unwritable",
    "Verif.Props.C112_stages",
    "Verif.Props.C112_kept_partial",
    "Verif.Props.C112_no_cache",
    "Verif.Props.C112_build",
    "Verif.Props.C112_configure",
    "Verif.Props.C112_git",
    "Verif.Props.C112_lost_violated",
    "Verif.Props.C112_relative_violated",
    "Verif.Props.C112_arguments_violated",
    "Verif.Props.C112_blanks_violated",
    "Verif.Props.C112_errors"
   ],
   "note": "C112_chain, C112_stage, C112_words, C112_unwritable, C112_stages, C112_kept_partial, C112_build, C112_configure, C112_git and C112_no_cache. Missing because false of the code: when a project is created each command replaces the output of the one before (C112_lost_violated), which goes to different files if the name is relative (C112_relative_violated); arguments for CMake are appended to the name of the preset (C112_arguments_violated); blanks in names (C112_blanks_violated). The shell is that of POSIX, restricted to words, double quotes, && and redirections; the variant for the compiler of Microsoft is not modelled."
  },
  {
   "property": "C113",
   "status": "partial",
   "theorems": [
    "Verif.Props.C113_message",
    "Verif.Props.C113_description",
    "Verif.Props.C113_portable_partial",
    "Verif.Props.C113_caught",
    "Verif.Props.C113_library",
    "Verif.Props.C113_files",
    "Verif.Props.C113_twice_violated",
    "Verif.Props.C113_neighbour_violated",
    "Verif.Props.C113_unexpected_violated",
    "Verif.Props.C113_outside_violated",
    "Verif.Props.C113_compared_violated"
   ],
   "note": "C113_message, C113_description, C113_portable_partial, C113_caught, C113_library and C113_files. Missing because false of the code: only the first mention of the project is erased (C113_twice_violated), with whatever character follows it (C113_neighbour_violated); messages of unexpected exceptions and the paths of files which are compared stay absolute (C113_unexpected_violated, C113_compared_violated); for locations outside of the project what is reported depends on its place (C113_outside_violated)."
  },
  {
   "property": "C114",
   "status": "partial",
   "theorems": [
    "Verif.Props.C114_leaf_types",
    "Verif.Props.C114_container_partial",
    "Verif.Props.C114_repeated_violated",
    "Verif.Props.C114_faithful",
    "Verif.Props.C114_tree_same",
    "Verif.Props.C114_tree_flat",
    "Verif.Props.C114_tree_partial",
    "Verif.Props.C114_shared_violated",
    "Verif.Props.C114_variant_violated"
   ],
   "note": "C114_leaf_types, C114_container_partial (exact), C114_faithful, C114_tree_same, C114_tree_flat and C114_tree_partial. Types other than variants are taken not to be convertible to each other. Missing because false of the code: leaves of which some, but not all, are of the same type (C114_repeated_violated); trees from suites with suites which differ and share a type of leaves (C114_shared_violated); suites which are transformed to variants (C114_variant_violated)."
  },
  {
   "property": "C115",
   "status": "partial",
   "theorems": [
    "Verif.Props.C115_outliers",
    "Verif.Props.C115_enough_partial",
    "Verif.Props.C115_units_violated"
   ],
   "note": "C115_outliers and C115_enough_partial, in real numbers. Missing because false of the code: if the unit is longer than a second, the result is zero (C115_units_violated)."
  },
  {
   "property": "C116",
   "status": "partial",
   "theorems": [
    "Verif.Props.C116_history_partial",
    "Verif.Props.C116_scaling_partial",
    "Verif.Props.C116_differences_partial",
    "Verif.Props.C116_origin_violated",
    "Verif.Props.C116_space_violated",
    "Verif.Props.C116_relaxed_violated",
    "Verif.Props.C116_validator_violated",
    "Verif.Props.C116_integers_violated",
    "Verif.Props.C116_width_violated"
   ],
   "note": "C116_history_partial, C116_scaling_partial and C116_differences_partial, for units which are not composite, without rounding, and for quantities of the types the library defines. Missing because false of the code: spaces with an origin can be combined with units with another zero (C116_space_violated) and relaxed ones with units where zero is the origin (C116_relaxed_violated); explicit origins and validators are forgotten (C116_origin_violated, C116_validator_violated); negative differences cannot be converted if the numbers are integers (C116_integers_violated), and differences of heights cannot be converted to some units (C116_width_violated)."
  },
  {
   "property": "C117",
   "status": "partial",
   "theorems": [
    "Verif.Props.C117_conversion",
    "Verif.Props.C117_difference",
    "Verif.Props.C117_accepted_partial",
    "Verif.Props.C117_chain_partial",
    "Verif.Props.C117_masses",
    "Verif.Props.C117_deduction_partial",
    "Verif.Props.C117_deduction_violated",
    "Verif.Props.C117_prefix_violated",
    "Verif.Props.C117_symbols_partial",
    "Verif.Props.C117_symbols_violated"
   ],
   "note": "C117_conversion, C117_difference and C117_masses hold for all units and values, without rounding; C117_accepted_partial, C117_chain_partial, C117_deduction_partial and C117_symbols_partial. Missing because false of the code: units with prefixes have the validator of the unit without, so that 100 K cannot be converted to milli degrees Celsius (C117_prefix_violated); no space is deduced for degrees Celsius and Fahrenheit and for charges (C117_deduction_violated); units with prefixes have no symbols, so that milligrams and kilotonnes look the same (C117_symbols_violated)."
  },
  {
   "property": "C118",
   "status": "partial",
   "theorems": [
    "Verif.Props.C118_formats",
    "Verif.Props.C118_nearest",
    "Verif.Props.C118_order",
    "Verif.Props.C118_bound",
    "Verif.Props.C118_least",
    "Verif.Props.C118_from_base",
    "Verif.Props.C118_unshifted",
    "Verif.Props.C118_double",
    "Verif.Props.C118_float_violated",
    "Verif.Props.C118_difference_partial",
    "Verif.Props.C118_chain_partial"
   ],
   "note": "C118_order, C118_bound, C118_least, C118_from_base and C118_unshifted hold for all values and all monotonic rounding, C118_formats says that IEEE rounding with any number of digits is such and C118_nearest that it is to nearest, ties to even; C118_double: with double all valid temperatures can be converted between K, \u00b0C and \u00b0F. Missing because false of the code: with float, what 0 K is converted to in \u00b0F can neither be converted to K nor to \u00b0C (C118_float_violated). C118_difference_partial and C118_chain_partial: displacements, infinities, NaN, underflow, ratios which are not ratios of integers, and overflow of integers are missing."
  },
  {
   "property": "C119",
   "status": "partial",
   "theorems": [
    "Verif.Props.C119_crash",
    "Verif.Props.C119_over",
    "Verif.Props.C119_torn",
    "Verif.Props.C119_torn_start",
    "Verif.Props.C119_torn_violated",
    "Verif.Props.C119_verdict_partial",
    "Verif.Props.C119_verdict_violated",
    "Verif.Props.C119_exception",
    "Verif.Props.C119_options"
   ],
   "note": "C119_crash, C119_over, C119_torn, C119_torn_start, C119_exception and C119_options hold for all histories and crash points. Missing because false of the code: the process may die between the truncation of the file and the announcement of the next check, and then no check is named (C119_torn_violated); a description which ends with \"Check ended\" makes the file say so within the check (C119_verdict_violated), so C119_verdict_partial excludes these. Files are assumed to open, and what is written to survive the process."
  },
  {
   "property": "C120",
   "status": "partial",
   "theorems": [
    "Verif.Props.C120_construct_partial",
    "Verif.Props.C120_ragged_violated",
    "Verif.Props.C120_access_partial",
    "Verif.Props.C120_index_violated",
    "Verif.Props.C120_monotonic",
    "Verif.Props.C120_linear"
   ],
   "note": "C120_monotonic and C120_linear are complete. C120_construct_partial and C120_access_partial hold for all sizes and lists, provided that the number of elements is a value of the index type. Missing because false of the code: lists of the right number of elements together but not each, for which the constructor always reads beyond the end of a list (C120_ragged_violated), and index types which are too narrow, with which construction succeeds but any access to the end of a partition terminates the process (C120_index_violated). swap_partitions does not compile for partitions of equal size, hence cannot be modelled."
  },
  {
   "property": "C121",
   "status": "proved",
   "theorems": [
    "Verif.Props.C121_shared",
    "Verif.Props.C121_by_value",
    "Verif.Props.C121_common",
    "Verif.Props.C121_moved_from"
   ],
   "note": "C121_shared and C121_by_value hold for all histories in which the weight of an edge which has been moved from is not used; C121_common says that having a weight in common is an equivalence with equal weights; C121_moved_from says exactly what is undefined, and what is not, after a move. The additional index of embedded edges is handled as the target is and is left out; edges are not destroyed; destruction of a weight with its last edge is std::shared_ptr's."
  },
  {
   "property": "C122",
   "status": "partial",
   "theorems": [
    "Verif.Props.C122_counts",
    "Verif.Props.C122_leaks",
    "Verif.Props.C122_size_violated",
    "Verif.Props.C122_size"
   ],
   "note": "C122_counts and C122_leaks are complete while no counter exceeds the range of int. That allocate(n) yields room for n objects is false of the code if n*sizeof(T) is no std::size_t (C122_size_violated); C122_size says that this is exactly when. Containers do not ask for so many objects. Allocators are not destroyed in the model; the lifetime of the counters is std::shared_ptr's."
  },
  {
   "property": "C123",
   "status": "partial",
   "theorems": [
    "Verif.Props.C123_replaced",
    "Verif.Props.C123_refused",
    "Verif.Props.C123_test",
    "Verif.Props.C123_unique",
    "Verif.Props.C123_code_violated",
    "Verif.Props.C123_again_violated"
   ],
   "note": "C123_replaced, C123_refused, C123_unique and C123_test are complete: they say for every text what happens. That code is never replaced and that a notice can be set again are false of the code (C123_code_violated, C123_again_violated)."
  },
  {
   "property": "C124",
   "status": "partial",
   "theorems": [
    "Verif.Props.C124_sound",
    "Verif.Props.C124_complete",
    "Verif.Props.C124_exact",
    "Verif.Props.C124_parts",
    "Verif.Props.C124_hidden_violated",
    "Verif.Props.C124_iterator_violated"
   ],
   "note": "C124_exact and C124_parts for types made of standard containers; C124_sound and C124_complete under exact conditions on what is compared and what is visible. Missing because false of the code: what is compared besides the value type, or by a class which is no template, is overlooked (C124_hidden_violated); iterators are said not to be comparable if what they point to is not (C124_iterator_violated). Types which are part of themselves, references and qualified types are not modelled."
  },
  {
   "property": "C125",
   "status": "partial",
   "theorems": [
    "Verif.Props.C125_inner",
    "Verif.Props.C125_norm",
    "Verif.Props.C125_rounded",
    "Verif.Props.C125_underflow_violated",
    "Verif.Props.C125_spaces",
    "Verif.Props.C125_callable",
    "Verif.Props.C125_concepts_violated",
    "Verif.Props.C125_canonical_violated",
    "Verif.Props.C125_origins",
    "Verif.Props.C125_dual_basis",
    "Verif.Props.C125_arenas"
   ],
   "note": "C125_inner, C125_norm, C125_rounded, C125_spaces, C125_origins, C125_callable, C125_dual_basis, C125_arenas. Missing because false of the code: with rounding, vectors other than zero may have norm zero in more than one dimension (C125_underflow_violated); the concepts are satisfied by no space at all (C125_concepts_violated); the basis used by vec_coords is not said to be orthonormal, so there is no norm for it (C125_canonical_violated). Infinities, NaN and contraction of products are not modelled."
  }
 ]
}